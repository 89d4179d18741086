/-
Model of the two complete models of implicitron, `GenericModel` and `OverfitModel`: target views, sampling mode, keyword arguments for the implicit functions, construction, binding of arguments
for one forward pass, cached hypernetworks, and what a forward pass returns.

* `implicitron/models/generic_model.py:325-341` (__post_init__), `343-599` (forward), `661-672`, `753-781` (construction)
* `implicitron/models/overfit_model.py:60-65`, `290-299`, `374-410` (implicit functions of a forward pass), `420-461`, `614-675` (construction)
* `implicitron/models/renderer/base.py:202-216` (ImplicitFunctionWrapper)
* `implicitron/models/implicit_function/scene_representation_networks.py:218-329` (SRNRaymarchHyperNet), `445-449` (on_bind_args)
* the fields of the implicit function classes: `neural_radiance_field.py`, `idr_feature_field.py:58-69`, `scene_representation_networks.py:332-334, 392-394`

A tensor of a batch is the list of its elements.  The networks which a hypernetwork generates are the values of a function of the global code, which may be another one at every forward pass because
the parameters are trained in between.  Not modelled: networks, rays, renderers and metrics (they have models of their own), image feature extraction, tqdm, visualisation, gradients.
-/
import Mathlib.Data.List.Basic
import Mathlib.Tactic.NormNum

set_option linter.unusedSectionVars false

namespace P3D.ImpModels

inductive Err
  /-- IndexError -/
  | index
  /-- KeyError -/
  | key
  /-- TypeError: unexpected keyword argument -/
  | type
  /-- ValueError, "image_feature_extractor must be present for view pooling." -/
  | extractor
  /-- ValueError, "sequence_name must be provided for view pooling" -/
  | sequence
  /-- ValueError, "requires num_passes=1" -/
  | passes
  /-- ValueError, "The chosen implicit function requires view pooling without aggregation." -/
  | aggregation
  /-- ValueError, "SRN Hypernetwork requires a non-trivial global code." -/
  | code
  /-- any exception of the renderer -/
  | render
  deriving DecidableEq

inductive EvalMode | training | evaluation
  deriving DecidableEq

inductive Sampling | maskSample | fullGrid
  deriving DecidableEq

/-! ### Target views -/

/-- `n_targets`, `generic_model.py:402-410`. -/
def nTargets (mode : EvalMode) (nTrain : Int) (batch : Nat) : Nat :=
  match mode with
  | .evaluation => 1
  | .training => if nTrain ≤ 0 then batch else min nTrain.toNat batch

/-- `camera[list(range(n))]`, `generic_model.py:420`. -/
def takeCameras {α : Type} (n : Nat) (l : List α) : Except Err (List α) := if n ≤ l.length then .ok (l.take n) else .error .index

/-- `safe_slice_targets`, `generic_model.py:414-417`. -/
def sliceTargets {α : Type} (n : Nat) (t : Option (List α)) : Option (List α) := t.map (fun l => l.take n)

/-- The sampling mode, `generic_model.py:423-427`. -/
def sampling (mode : EvalMode) (train eval : Sampling) : Sampling := if mode = .training then train else eval

/-- The mask given to the ray sampler, `generic_model.py:434-439`. -/
def rayMask {α : Type} (s : Sampling) (n : Nat) (mask : Option (List α)) : Option (List α) :=
  match mask with
  | none => none
  | some m => if s = .maskSample then some (m.take n) else none

/-- Number of the views a training or evaluation step renders and supervises: the targets, and all the tensors which are compared with the renders. -/
structure Supervision (α : Type) where
  cameras : List α
  images : Option (List α)
  depths : Option (List α)
  fg : Option (List α)
  crop : Option (List α)

/-- The target part of a batch, `generic_model.py:420, 547-556`. -/
def supervise {α : Type} (mode : EvalMode) (nTrain : Int) (b : Supervision α) : Except Err (Supervision α) :=
  let n := nTargets mode nTrain b.cameras.length
  match takeCameras n b.cameras with
  | .error e => .error e
  | .ok c => .ok ⟨c, sliceTargets n b.images, sliceTargets n b.depths, sliceTargets n b.fg, sliceTargets n b.crop⟩

/-! ### What is returned -/

inductive Key | imagesRender | depthsRender | masksRender | implicitronRender | objective
  deriving DecidableEq

/-- The keys a forward pass adds to the metrics, `generic_model.py:565-598`, `overfit_model.py:428-460`. -/
def outKeys (s : Sampling) (rasterize hasObjective : Bool) : List Key :=
  (match s with
   | .maskSample => if rasterize then [.imagesRender, .depthsRender, .masksRender] else []
   | .fullGrid => [.imagesRender, .depthsRender, .masksRender, .implicitronRender]) ++ (if hasObjective then [.objective] else [])

/-- `preds["implicitron_render"]` of the evaluator, `evaluator.py:104`. -/
def evaluatorReads (train eval : Sampling) (rasterize hasObjective : Bool) : Except Err Unit :=
  if Key.implicitronRender ∈ outKeys (sampling .evaluation train eval) rasterize hasObjective then .ok () else .error .key

/-! ### Construction -/

inductive Cls | nerf | nerformer | idr | srn | srnHyper | voxel
  deriving DecidableEq

inductive Arg | latentDim | colorDim | featureVectorSize | encodingDim | latentDimHypernet | featureWorkSize
  deriving DecidableEq

/-- Which of the arguments are fields of a class. -/
def fields : Cls → List Arg
  | .nerf => [.latentDim, .colorDim]
  | .nerformer => [.latentDim, .colorDim]
  | .idr => [.featureVectorSize, .encodingDim]
  | .srn => [.latentDim]
  | .srnHyper => [.latentDimHypernet, .latentDim]
  | .voxel => []

/-- The extra arguments in `GenericModel`, `generic_model.py:716-748`: pooled and global are the dimensions of the view pooled features and the global code, color is `render_features_dimensions`. -/
def extraGeneric (c : Cls) (pooled global color : Nat) : List (Arg × Nat) :=
  (if c = .nerf ∨ c = .nerformer then [(.latentDim, pooled + global), (.colorDim, color)] else []) ++
  (if c = .idr then [(.featureVectorSize, color), (.encodingDim, global)] else []) ++
  (if c = .srn then [(.latentDim, pooled + global)] else []) ++
  (if c = .srnHyper then [(.latentDim, pooled), (.latentDimHypernet, global)] else [])

/-- The extra arguments in `OverfitModel`, `overfit_model.py:614-631`. -/
def extraOverfit (c : Cls) (global color : Nat) : List (Arg × Nat) :=
  (if c = .nerf ∨ c = .nerformer then [(.latentDim, global), (.colorDim, color)] else []) ++
  (if c = .idr then [(.featureWorkSize, global), (.featureVectorSize, color)] else []) ++
  (if c = .srn then [(.latentDim, global)] else [])

/-- Calling the constructor of a class with extra arguments. -/
def construct (c : Cls) (extra : List (Arg × Nat)) : Except Err (Cls × List (Arg × Nat)) :=
  if extra.all (fun a => decide (a.1 ∈ fields c)) then .ok (c, extra) else .error .type

/-- `allows_multiple_passes` and `requires_pooling_without_aggregation` of the classes. -/
def multiPass : Cls → Bool
  | .nerf => true
  | .nerformer => true
  | .voxel => true
  | _ => false

def noAggregation : Cls → Bool
  | .nerformer => true
  | _ => false

/-- The configuration of `GenericModel`. -/
structure Config where
  cls : Cls
  passes : Nat
  pooling : Bool
  extractor : Bool
  /-- the aggregator reduces over views -/
  aggregates : Bool
  pooledDim : Nat
  globalDim : Nat
  color : Nat

/-- `__post_init__` and `_construct_implicit_functions`, `generic_model.py:331-341, 716-781`. -/
def buildGeneric (c : Config) : Except Err (List (Cls × List (Arg × Nat))) :=
  if c.pooling && !c.extractor then .error .extractor
  else if c.passes ≠ 1 ∧ multiPass c.cls = false then .error .passes
  else if noAggregation c.cls && (c.pooling && c.aggregates) then .error .aggregation
  else (List.replicate c.passes ()).mapM fun _ => construct c.cls (extraGeneric c.cls (if c.pooling then c.pooledDim else 0) c.globalDim c.color)

/-- The implicit functions of `OverfitModel` in the order in which the renderer gets them, `overfit_model.py:290-299, 382-385, 633-675`; a function is identified by its class and arguments. -/
def buildOverfit (cls : Cls) (coarse : Option Cls) (share : Bool) (global color : Nat) : Except Err (List (Cls × List (Arg × Nat))) := do
  let cf ← match coarse, share with
    | some c, false => (construct c (extraOverfit cls global color)).map some
    | _, _ => pure none
  let f ← construct cls (extraOverfit cls global color)
  pure (match share, cf with
    | true, _ => [f, f]
    | false, some g => [g, f]
    | false, none => [f])

/-! ### Binding of arguments and cached networks -/

variable {C N : Type}

/-- A wrapped implicit function with a hypernetwork: the bound global code (`none` when nothing is bound; inside, `none` is the code `None`) and the cached network. -/
structure Wrapped (C N : Type) where
  bound : Option (Option C) := none
  cache : Option N := none

/-- `SRNRaymarchHyperNet.forward`, `scene_representation_networks.py:300-329`: the network which is used, and the new cache. -/
def hyperCall (gen : C → N) (cache : Option N) (code : Option C) : Except Err (N × Option N) :=
  match code with
  | none => .error .code
  | some c =>
    match cache with
    | some n => .ok (n, some n)
    | none => .ok (gen c, some (gen c))

/-- `bind_args` with `on_bind_args`, `base.py:208-210`, `scene_representation_networks.py:445-449`. -/
def bindArgs (w : Wrapped C N) (code : Option C) : Wrapped C N := { w with bound := some code, cache := none }

/-- `unbind_args`, `base.py:212-213`. -/
def unbindArgs (w : Wrapped C N) : Wrapped C N := { w with bound := none }

/-- The wrapper's `forward`, `base.py:215-216`: bound arguments take precedence over those of the call. -/
def wrappedCall (gen : C → N) (w : Wrapped C N) (kw : Option C) : Except Err (N × Wrapped C N) := do
  let (n, c) ← hyperCall gen w.cache (match w.bound with | some b => b | none => kw)
  pure (n, { w with cache := c })

/-- A renderer which evaluates the function a number of times; the networks it meets. -/
def renderCalls (gen : C → N) (w : Wrapped C N) : Nat → Except Err (List N × Wrapped C N)
  | 0 => .ok ([], w)
  | k + 1 =>
    match wrappedCall gen w none with
    | .error e => .error e
    | .ok (n, w') =>
      match renderCalls gen w' k with
      | .error e => .error e
      | .ok (l, w'') => .ok (n :: l, w'')

/-- One forward pass of `GenericModel` on the wrapper, `generic_model.py:484-534`: the code is bound, the renderer runs, the arguments are unbound.  `fails` says that the renderer raises after
its calls.  The first part is what the caller sees, the second the wrapper afterwards: there is no `finally`. -/
def forwardGeneric (gen : C → N) (w : Wrapped C N) (code : Option C) (calls : Nat) (fails : Bool) : Except Err (List N) × Wrapped C N :=
  let w1 := bindArgs w code
  match renderCalls gen w1 calls with
  | .error e => (.error e, w1)
  | .ok (l, w2) => if fails then (.error .render, w2) else (.ok l, unbindArgs w2)

/-- One forward pass of `OverfitModel`, `overfit_model.py:387-408`: the code is an argument of every call of the function itself, nothing is bound or cleared. -/
def forwardOverfit (gen : C → N) (cache : Option N) (code : C) : Nat → Except Err (List N × Option N)
  | 0 => .ok ([], cache)
  | k + 1 =>
    match hyperCall gen cache (some code) with
    | .error e => .error e
    | .ok (n, c') =>
      match forwardOverfit gen c' code k with
      | .error e => .error e
      | .ok (l, c'') => .ok (n :: l, c'')

/-- A sequence of forward passes: parameters (as the function they make of the hypernetwork), code, number of evaluations. -/
def runGeneric : Wrapped C N → List ((C → N) × Option C × Nat × Bool) → List (Except Err (List N)) × Wrapped C N
  | w, [] => ([], w)
  | w, (g, c, k, f) :: l =>
    let r := forwardGeneric g w c k f
    let s := runGeneric r.2 l
    (r.1 :: s.1, s.2)

def runOverfit : Option N → List ((C → N) × C × Nat) → Except Err (List (List N))
  | _, [] => .ok []
  | cache, (g, c, k) :: l =>
    match forwardOverfit g cache c k with
    | .error e => .error e
    | .ok (r, cache') =>
      match runOverfit cache' l with
      | .error e => .error e
      | .ok s => .ok (r :: s)

/-! ### Target views: theorems -/

/-- **How many views are rendered**: one in evaluation; in training `n_train_target_views`, or all of them when it is not positive or larger than the batch. -/
theorem nTargets_spec (nTrain : Int) (batch : Nat) : nTargets .evaluation nTrain batch = 1 ∧ (nTrain ≤ 0 → nTargets .training nTrain batch = batch) ∧
    (0 < nTrain → (nTargets .training nTrain batch : Int) = min nTrain batch) ∧ (nTargets .training nTrain batch ≤ batch) ∧ (0 < batch → 0 < nTargets .training nTrain batch) := by
  refine ⟨rfl, fun h => by simp [nTargets, h], fun h => ?_, ?_, fun hb => ?_⟩
  · have : ¬ nTrain ≤ 0 := by omega
    simp only [nTargets, this, if_false]
    omega
  · unfold nTargets; dsimp only; split <;> omega
  · unfold nTargets; dsimp only; split <;> omega

example : nTargets .training 3 2 = 2 ∧ nTargets .training 2 5 = 2 ∧ nTargets .training (-1) 5 = 5 ∧ nTargets .evaluation 2 5 = 1 := by decide

/-- **Renders are compared with the views they are rendered from**: on a batch of at least one view the forward pass gets as many cameras, images, depths and masks as there are targets, element
by element those at the beginning of the batch; absent tensors stay absent. -/
theorem supervise_spec {α : Type} (mode : EvalMode) (nTrain : Int) (b : Supervision α) (hb : b.cameras ≠ []) :
    ∃ s, supervise mode nTrain b = .ok s ∧ s.cameras.length = nTargets mode nTrain b.cameras.length ∧ 0 < s.cameras.length ∧
      (∀ i, i < s.cameras.length → s.cameras[i]? = b.cameras[i]?) ∧
      (∀ t ∈ [(s.images, b.images), (s.depths, b.depths), (s.fg, b.fg), (s.crop, b.crop)], (t.1 = none ↔ t.2 = none) ∧
        ∀ l l', t.1 = some l → t.2 = some l' → l'.length = b.cameras.length → l.length = s.cameras.length ∧ ∀ i, i < s.cameras.length → l[i]? = l'[i]?) := by
  have hl : 0 < b.cameras.length := List.length_pos_iff.2 hb
  have hn : nTargets mode nTrain b.cameras.length ≤ b.cameras.length ∧ 0 < nTargets mode nTrain b.cameras.length := by
    have := nTargets_spec nTrain b.cameras.length
    cases mode
    · exact ⟨this.2.2.2.1, this.2.2.2.2 hl⟩
    · rw [this.1]; exact ⟨hl, Nat.one_pos⟩
  refine ⟨⟨b.cameras.take (nTargets mode nTrain b.cameras.length), sliceTargets (nTargets mode nTrain b.cameras.length) b.images, sliceTargets (nTargets mode nTrain b.cameras.length) b.depths,
    sliceTargets (nTargets mode nTrain b.cameras.length) b.fg, sliceTargets (nTargets mode nTrain b.cameras.length) b.crop⟩, by simp only [supervise, takeCameras, hn.1, if_true], ?_, ?_, ?_, ?_⟩
  · simp [hn.1]
  · simp [hn.1, hn.2]
  · intro i hi
    simp only [List.length_take] at hi
    dsimp only
    rw [List.getElem?_take_of_lt (by omega)]
  · intro t ht
    have key : ∀ o : Option (List α), ((sliceTargets (nTargets mode nTrain b.cameras.length) o = none ↔ o = none) ∧
        ∀ l l', sliceTargets (nTargets mode nTrain b.cameras.length) o = some l → o = some l' → l'.length = b.cameras.length → l.length = (b.cameras.take (nTargets mode nTrain b.cameras.length)).length ∧
          ∀ i, i < (b.cameras.take (nTargets mode nTrain b.cameras.length)).length → l[i]? = l'[i]?) := by
      intro o
      cases o with
      | none => simp [sliceTargets]
      | some x =>
        simp only [sliceTargets, Option.map_some, reduceCtorEq, Option.some.injEq, true_and]
        rintro l l' rfl rfl hx
        refine ⟨by simp [hx], fun i hi => ?_⟩
        simp only [List.length_take] at hi
        rw [List.getElem?_take_of_lt (by omega)]
    simp only [List.mem_cons, List.not_mem_nil, or_false] at ht
    rcases ht with rfl | rfl | rfl | rfl <;> exact key _

example : supervise .training 1 ⟨[10, 20, 30], some [1, 2, 3], none, some [4, 5, 6], none⟩ = .ok ⟨[10], some [1], none, some [4], none⟩ := rfl

/-- **An empty batch** cannot be evaluated. -/
theorem supervise_empty {α : Type} (nTrain : Int) (b : Supervision α) (hb : b.cameras = []) : supervise .evaluation nTrain b = .error .index := by
  simp [supervise, hb, nTargets, takeCameras]

/-- **The evaluator needs the full grid**: it finds a render exactly when the sampling mode of evaluation is the full grid; the mode of training does not matter. -/
theorem evaluatorReads_iff (train eval : Sampling) (r o : Bool) : evaluatorReads train eval r o = .ok () ↔ eval = .fullGrid := by
  cases train <;> cases eval <;> cases r <;> cases o <;> decide

/-- **Rays follow the crop mask only when sampled by mask**, and then only that of the targets. -/
theorem rayMask_spec {α : Type} (s : Sampling) (n : Nat) (m : List α) : rayMask s n (none : Option (List α)) = none ∧ (rayMask s n (some m) = some (m.take n) ↔ s = .maskSample) ∧
    (s = .fullGrid → rayMask s n (some m) = none) := by
  cases s <;> simp [rayMask]

example : outKeys .maskSample false true = [.objective] ∧ rayMask .maskSample 1 (some [7, 8]) = some [7] := by decide

/-! ### Construction: theorems -/

theorem mapM_unit {α : Type} (x : Except Err α) (n : Nat) : (List.replicate n ()).mapM (fun _ => x) = match n, x with
    | 0, _ => .ok []
    | _, .error e => .error e
    | n, .ok a => .ok (List.replicate n a) := by
  induction n with
  | zero => rfl
  | succ n ih =>
    rw [List.replicate_succ, List.mapM_cons, ih]
    cases x with
    | error e => rfl
    | ok a => cases n <;> rfl

/-- **The generic model accepts every class it knows**: the extra arguments are fields of the class. -/
theorem construct_generic (c : Cls) (p g k : Nat) : construct c (extraGeneric c p g k) = .ok (c, extraGeneric c p g k) := by
  cases c <;> rfl

/-- **Which configurations can be built**: pooling needs a feature extractor, other than one pass needs a class which allows it, and NeRFormer needs pooled features which are not aggregated. -/
theorem buildGeneric_ok (c : Config) : (∃ l, buildGeneric c = .ok l) ↔
    (c.pooling = true → c.extractor = true) ∧ (c.passes = 1 ∨ c.cls = .nerf ∨ c.cls = .nerformer ∨ c.cls = .voxel) ∧ (c.cls = .nerformer → c.pooling = true → c.aggregates = false) := by
  obtain ⟨cls, passes, pooling, ex, agg, pd, gd, col⟩ := c
  have hm : ∀ e, ∃ l, (List.replicate passes ()).mapM (fun _ => construct cls (extraGeneric cls e gd col)) = .ok l := by
    intro e
    rw [construct_generic, mapM_unit]
    cases passes <;> exact ⟨_, rfl⟩
  simp only [buildGeneric]
  by_cases h1 : (pooling && !ex) = true
  · rw [if_pos h1]
    have : pooling = true ∧ ex = false := by simpa using h1
    simp [this.1, this.2]
  · rw [if_neg h1]
    by_cases h2 : passes ≠ 1 ∧ multiPass cls = false
    · rw [if_pos h2]
      simp only [reduceCtorEq, exists_false, false_iff, not_and]
      intro _ h3
      exfalso
      rcases h3 with h3 | h3 | h3 | h3
      · exact h2.1 h3
      · rw [h3] at h2; simp [multiPass] at h2
      · rw [h3] at h2; simp [multiPass] at h2
      · rw [h3] at h2; simp [multiPass] at h2
    · rw [if_neg h2]
      have h2' : passes = 1 ∨ cls = .nerf ∨ cls = .nerformer ∨ cls = .voxel := by
        by_cases hp : passes = 1
        · exact .inl hp
        · have : multiPass cls ≠ false := fun h => h2 ⟨hp, h⟩
          cases cls <;> simp [multiPass] at this ⊢
      have h1' : pooling = true → ex = true := by
        intro hp
        cases ex
        · simp [hp] at h1
        · rfl
      by_cases h3 : (noAggregation cls && (pooling && agg)) = true
      · rw [if_pos h3]
        cases cls <;> simp [noAggregation] at h3
        simp [h3.1, h3.2]
      · rw [if_neg h3]
        refine ⟨fun _ => ⟨h1', h2', fun hc hp => ?_⟩, fun _ => hm _⟩
        subst hc
        cases agg
        · rfl
        · simp [noAggregation, hp] at h3

/-- **The functions of a generic model**: one for each pass, all of the configured class with the same arguments. -/
theorem buildGeneric_passes (c : Config) (l : List (Cls × List (Arg × Nat))) (h : buildGeneric c = .ok l) :
    l = List.replicate c.passes (c.cls, extraGeneric c.cls (if c.pooling then c.pooledDim else 0) c.globalDim c.color) := by
  unfold buildGeneric at h
  split at h
  · cases h
  split at h
  · cases h
  split at h
  · cases h
  rw [construct_generic, mapM_unit] at h
  cases hp : c.passes with
  | zero => rw [hp] at h; cases h; rfl
  | succ n => rw [hp] at h; cases h; rfl

/-- **Inputs are as wide as announced**: the widths the class is told add up to the pooled features plus the global code for all NeRF and SRN classes, so the concatenated embedding fits. -/
theorem latent_width (c : Cls) (p g k : Nat) (hc : c = .nerf ∨ c = .nerformer ∨ c = .srn ∨ c = .srnHyper) :
    (((extraGeneric c p g k).filter (fun a => a.1 = .latentDim ∨ a.1 = .latentDimHypernet)).map (·.2)).sum = p + g := by
  rcases hc with rfl | rfl | rfl | rfl <;> rfl

/-- **Pooled features are not counted for IdrFeatureField**: none of its arguments depends on them, against its documentation. -/
theorem idr_no_pool (p p' g k : Nat) : extraGeneric .idr p g k = extraGeneric .idr p' g k := rfl

example : buildGeneric ⟨.nerf, 2, true, true, true, 16, 8, 3⟩ = .ok [(.nerf, [(.latentDim, 24), (.colorDim, 3)]), (.nerf, [(.latentDim, 24), (.colorDim, 3)])] ∧
    buildGeneric ⟨.srn, 2, false, false, true, 0, 8, 3⟩ = .error .passes ∧ buildGeneric ⟨.nerformer, 1, true, true, true, 4, 0, 3⟩ = .error .aggregation := ⟨rfl, rfl, rfl⟩

/-- **`OverfitModel` cannot be built with IdrFeatureField**: it passes `feature_work_size`, which is no field of the class, and never the width of the global code; all other classes work. -/
theorem overfit_classes (c : Cls) (g k : Nat) : buildOverfit c none false g k = (if c = .idr then .error .type else .ok [(c, extraOverfit c g k)]) := by
  cases c <;> rfl

/-- **The coarse function gets the arguments of the fine one**: a coarse class other than the fine one can be used only if these happen to be fields of it. -/
theorem overfit_coarse (c d : Cls) (g k : Nat) : (∃ l, buildOverfit c (some d) false g k = .ok l) ↔ c ≠ .idr ∧ ∀ a ∈ extraOverfit c g k, a.1 ∈ fields d := by
  have bad : construct d (extraOverfit c g k) = .error .type ∨ (construct d (extraOverfit c g k) = .ok (d, extraOverfit c g k) ∧ ∀ a ∈ extraOverfit c g k, a.1 ∈ fields d) := by
    unfold construct
    split
    · rename_i h; right; exact ⟨rfl, by simpa using h⟩
    · left; rfl
  have bad' : (∀ a ∈ extraOverfit c g k, a.1 ∈ fields d) → construct d (extraOverfit c g k) = .ok (d, extraOverfit c g k) := by
    intro h
    unfold construct
    rw [if_pos (by simpa using h)]
  constructor
  · rintro ⟨l, h⟩
    rcases bad with hb | ⟨hb, ha⟩
    · simp [buildOverfit, hb, Except.map, bind, Except.bind] at h
    · refine ⟨?_, ha⟩
      rintro rfl
      have := ha (.featureWorkSize, g) (by simp [extraOverfit])
      cases d <;> simp [fields] at this
  · rintro ⟨hc, h⟩
    have h2 : construct c (extraOverfit c g k) = .ok (c, extraOverfit c g k) := by
      cases c <;> first | exact absurd rfl hc | rfl
    refine ⟨[(d, extraOverfit c g k), (c, extraOverfit c g k)], ?_⟩
    simp [buildOverfit, bad' h, h2, Except.map, bind, Except.bind, pure, Except.pure]

/-- **Shared functions**: with sharing the coarse function is the fine one, whatever coarse class is configured. -/
theorem overfit_share (c : Cls) (d : Option Cls) (g k : Nat) (hc : c ≠ .idr) : buildOverfit c d true g k = .ok [(c, extraOverfit c g k), (c, extraOverfit c g k)] := by
  cases c <;> first | exact absurd rfl hc | (cases d <;> rfl)

example : buildOverfit .nerf (some .voxel) false 8 3 = .error .type ∧ buildOverfit .voxel (some .nerf) false 8 3 = .ok [(.nerf, []), (.voxel, [])] := ⟨rfl, rfl⟩

/-! ### Binding: theorems -/

theorem renderCalls_cached (gen : C → N) (w : Wrapped C N) (c : C) (n : N) (hb : w.bound = some (some c)) (hc : w.cache = some n) (k : Nat) :
    renderCalls gen w k = .ok (List.replicate k n, w) := by
  obtain ⟨b, ca⟩ := w
  simp only at hb hc
  subst hb hc
  induction k with
  | zero => rfl
  | succ k ih =>
    simp only [renderCalls, wrappedCall, hyperCall, bind, Except.bind, pure, Except.pure, ih]
    rfl

/-- **Every evaluation of a forward pass uses the network of its own code and parameters**, whatever happened to the wrapper before, failed passes included. -/
theorem forwardGeneric_ok (gen : C → N) (w : Wrapped C N) (c : C) (k : Nat) : (forwardGeneric gen w (some c) k false).1 = .ok (List.replicate k (gen c)) := by
  cases k with
  | zero => rfl
  | succ k =>
    have h : renderCalls gen (bindArgs w (some c)) (k + 1) = .ok (gen c :: List.replicate k (gen c), ⟨some (some c), some (gen c)⟩) := by
      simp only [renderCalls, wrappedCall, hyperCall, bindArgs, bind, Except.bind, pure, Except.pure]
      rw [renderCalls_cached gen _ c (gen c) rfl rfl k]
    simp only [forwardGeneric, h]
    rfl

/-- **No code, no hypernetwork**: without a global encoder every evaluation raises. -/
theorem forwardGeneric_none (gen : C → N) (w : Wrapped C N) (k : Nat) (f : Bool) : (forwardGeneric gen w none (k + 1) f).1 = .error .code := rfl

/-- **Nothing stays bound after a successful pass; after a failed one the arguments stay bound.** -/
theorem forwardGeneric_bound (gen : C → N) (w : Wrapped C N) (code : Option C) (k : Nat) (f : Bool) :
    (forwardGeneric gen w code k f).2.bound = (match (forwardGeneric gen w code k f).1 with | .ok _ => none | .error _ => some code) := by
  have hb : ∀ (k : Nat) (w : Wrapped C N) (l : List N) (w' : Wrapped C N), renderCalls gen w k = .ok (l, w') → w'.bound = w.bound := by
    intro k
    induction k with
    | zero => intro w l w' h; cases h; rfl
    | succ k ih =>
      intro w l w' h
      simp only [renderCalls] at h
      cases h1 : wrappedCall gen w none with
      | error e => rw [h1] at h; cases h
      | ok r =>
        obtain ⟨n, w1⟩ := r
        rw [h1] at h
        dsimp only at h
        cases h2 : renderCalls gen w1 k with
        | error e => rw [h2] at h; cases h
        | ok s =>
          obtain ⟨l', w2⟩ := s
          rw [h2] at h
          cases h
          rw [ih w1 l' _ h2]
          unfold wrappedCall at h1
          cases h3 : hyperCall gen w.cache (match w.bound with | some b => b | none => none) with
          | error e => rw [h3] at h1; cases h1
          | ok q => rw [h3] at h1; cases h1; rfl
  unfold forwardGeneric
  dsimp only
  cases h : renderCalls gen (bindArgs w code) k with
  | error e => rfl
  | ok r =>
    obtain ⟨l, w2⟩ := r
    dsimp only
    cases f
    · rfl
    · exact hb k _ l w2 h

/-- **Passes do not influence each other**: in any sequence of forward passes, with changing parameters, codes and failures in between, each pass which does not fail sees the network its own parameters
make of its own code. -/
theorem runGeneric_spec (w : Wrapped C N) (l : List ((C → N) × Option C × Nat × Bool)) :
    (runGeneric w l).1.length = l.length ∧ ∀ (i : Nat) (g : C → N) (c : C) (k : Nat), l[i]? = some (g, some c, k, false) → (runGeneric w l).1[i]? = some (.ok (List.replicate k (g c))) := by
  induction l generalizing w with
  | nil => exact ⟨rfl, by simp⟩
  | cons a l ih =>
    obtain ⟨g, c, k, f⟩ := a
    simp only [runGeneric, List.length_cons]
    refine ⟨by rw [(ih _).1], fun i g' c' k' hi => ?_⟩
    cases i with
    | zero =>
      simp only [List.getElem?_cons_zero, Option.some.injEq, Prod.mk.injEq] at hi
      obtain ⟨rfl, rfl, rfl, rfl⟩ := hi
      rw [List.getElem?_cons_zero, forwardGeneric_ok]
    | succ i =>
      rw [List.getElem?_cons_succ] at hi ⊢
      exact (ih _).2 i g' c' k' hi

theorem forwardOverfit_cached (gen : C → N) (n : N) (c : C) (k : Nat) : forwardOverfit gen (some n) c k = .ok (List.replicate k n, some n) := by
  induction k with
  | zero => rfl
  | succ k ih => simp only [forwardOverfit, hyperCall, ih]; rfl

/-- **`OverfitModel` keeps the first network for ever**: with a hypernetwork all later forward passes use the network which the first parameters made of the first code, for other sequences and
after every training step. -/
theorem overfit_stale (g : C → N) (c : C) (k : Nat) (l : List ((C → N) × C × Nat)) :
    runOverfit none ((g, c, k + 1) :: l) = .ok (List.replicate (k + 1) (g c) :: l.map (fun a => List.replicate a.2.2 (g c))) := by
  have h : ∀ l : List ((C → N) × C × Nat), runOverfit (some (g c)) l = .ok (l.map (fun a => List.replicate a.2.2 (g c))) := by
    intro l
    induction l with
    | nil => rfl
    | cons a l ih => simp only [runOverfit, forwardOverfit_cached, ih, List.map_cons]
  simp only [runOverfit, forwardOverfit, hyperCall, forwardOverfit_cached, h]
  rfl

/-- Two sequences with the codes 1 and 2, the network of a code being the code itself. -/
example : runOverfit none [(fun c : Nat => c, 1, 1), (fun c => c + 10, 2, 1)] = .ok [[1], [1]] ∧
    (runGeneric ⟨none, none⟩ [(fun c : Nat => c, some 1, 1, false), (fun c => c, some 5, 1, true), (fun c => c + 10, some 2, 2, false)]).1 = [.ok [1], .error .render, .ok [12, 12]] := ⟨rfl, rfl⟩

end P3D.ImpModels
