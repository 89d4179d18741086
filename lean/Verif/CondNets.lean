/-
Networks and encoders that condition a model, and the dataset of renders of a mesh.

* `implicitron/models/renderer/rgb_net.py:20-140` (`RayNormalColoringNetwork`)
* `implicitron/models/global_encoder/global_encoder.py:20-140` (`SequenceAutodecoder`, `HarmonicTimeEncoder`)
* `implicitron/models/feature_extractor/resnet_feature_extractor.py:23-230` (`ResNetFeatureExtractor`)
* `implicitron/dataset/rendered_mesh_dataset_map_provider.py:36-240` (`RenderedMeshDatasetMapProvider`)

Simplifications: exact numbers; of tensors only the widths matter unless said otherwise; the layers of ResNet are those of torchvision, which have the widths of the table in the code; images and renders are not modelled.
Harmonic embeddings are in `Verif.Harmonic`, autodecoders in `Verif.AutoDec`, the dataset in `Verif.SingleScene`.
-/
import Verif.Harmonic
import Verif.Vec3
import Mathlib.Analysis.SpecialFunctions.Pow.Real
import Mathlib.Analysis.SpecialFunctions.Trigonometric.Basic
import Mathlib.Tactic.Ring
import Mathlib.Tactic.FieldSimp
import Mathlib.Tactic.Linarith
import Mathlib.Tactic.Positivity
import Mathlib.Tactic.NormNum

set_option linter.unusedSectionVars false

namespace P3D.CondNets

open P3D.Harmonic (outputDim embed)

/-- What can go wrong. -/
inductive Err where
  | value
  | index
  | type
  | runtime
  | assertion
  | zeroDivision
  deriving DecidableEq, Repr

/-! ## The colouring network -/

/-- The width of the first layer, `rgb_net.py:57-70`. -/
def firstWidth (dIn features harmonics pooled : Nat) : Nat :=
  dIn + features + (if 0 < harmonics then outputDim 3 harmonics true - 3 else 0) + (if 0 < pooled then pooled else 0)

/-- The width of the view directions, `rgb_net.py:107-108`. -/
def dirWidth (harmonics : Nat) : Nat := if 0 < harmonics then outputDim 3 harmonics true else 3

/-- The width of what is concatenated, `rgb_net.py:110-125`; `pool` is the width of the pooled features if there is a pooling function. -/
def inputWidth (mode : String) (harmonics features : Nat) (pool : Option Nat) : Except Err Nat :=
  if mode = "idr" then .ok (3 + dirWidth harmonics + 3 + features + pool.getD 0)
  else if mode = "no_view_dir" then .ok (3 + 3 + features + pool.getD 0)
  else if mode = "no_normal" then .ok (3 + dirWidth harmonics + features + pool.getD 0)
  else .error .value

/-- The width of the result, `rgb_net.py:90-136`: `anyMask` is `none` without masks and else whether a pixel is masked; without one the result has the width of the normals. -/
def coloring (mode : String) (dIn fsize dOut harmonics pooled : Nat) (anyMask : Option Bool) (features : Nat) (pool : Option Nat) : Except Err Nat :=
  if anyMask = some false then .ok 3
  else match inputWidth mode harmonics features pool with
    | .error e => .error e
    | .ok w => if w = firstWidth dIn fsize harmonics pooled then .ok dOut else .error .runtime

theorem dirWidth_eq (n : Nat) : dirWidth n = 3 + 6 * n := by
  unfold dirWidth outputDim
  split_ifs with h
  · simp
    ring
  · omega

theorem firstWidth_eq (dIn f n p : Nat) : firstWidth dIn f n p = dIn + f + 6 * n + p := by
  unfold firstWidth outputDim
  split_ifs <;> simp <;> omega

/-- With a masked pixel and the pooled width declared right: the network runs exactly if `d_in` and `feature_vector_size` add up to what the documentation says, but in mode `no_view_dir`
with harmonic functions they must add up to that much less as the directions that are not used would be wider. -/
theorem coloring_runs (dIn fsize dOut n features p : Nat) (m : Option Bool) (hm : m ≠ some false) (pool : Option Nat) (hp : pool.getD 0 = p) :
    (coloring "idr" dIn fsize dOut n p m features pool = .ok dOut ↔ dIn + fsize = 9 + features) ∧
    (coloring "no_normal" dIn fsize dOut n p m features pool = .ok dOut ↔ dIn + fsize = 6 + features) ∧
    (coloring "no_view_dir" dIn fsize dOut n p m features pool = .ok dOut ↔ dIn + fsize + 6 * n = 6 + features) := by
  have key : ∀ mode w, inputWidth mode n features pool = .ok w → (coloring mode dIn fsize dOut n p m features pool = .ok dOut ↔ w = dIn + fsize + 6 * n + p) := by
    intro mode w hw
    unfold coloring
    rw [if_neg hm, hw, firstWidth_eq]
    dsimp only
    split_ifs with h
    · simp [h]
    · simp [h]
  refine ⟨?_, ?_, ?_⟩
  · rw [key "idr" _ (by rw [inputWidth, if_pos rfl]), dirWidth_eq, hp]
    omega
  · rw [key "no_normal" _ (by rw [inputWidth, if_neg (by decide), if_neg (by decide), if_pos rfl]), dirWidth_eq, hp]
    omega
  · rw [key "no_view_dir" _ (by rw [inputWidth, if_neg (by decide), if_pos rfl]), hp]
    omega

/-- A wrong number of pooled features, or a pooling function that is missing, is noticed. -/
theorem coloring_pooled (dIn fsize dOut n features p : Nat) (m : Option Bool) (hm : m ≠ some false) (pool : Option Nat) (h : dIn + fsize = 9 + features) :
    coloring "idr" dIn fsize dOut n p m features pool = .ok dOut ↔ pool.getD 0 = p := by
  unfold coloring
  rw [if_neg hm, inputWidth, if_pos rfl, firstWidth_eq, dirWidth_eq]
  dsimp only
  split_ifs with h'
  · simp only [true_iff]
    omega
  · simp only [false_iff]
    omega

/-- When no pixel is masked the result has three channels whatever `d_out` is, and nothing is checked, not even the mode, which is never checked before. -/
theorem coloring_empty (mode : String) (dIn fsize dOut n features p : Nat) (pool : Option Nat) :
    coloring mode dIn fsize dOut n p (some false) features pool = .ok 3 ∧
    (mode ≠ "idr" → mode ≠ "no_view_dir" → mode ≠ "no_normal" → coloring mode dIn fsize dOut n p (some true) features pool = .error .value) := by
  refine ⟨by rw [coloring, if_pos rfl], ?_⟩
  intro h1 h2 h3
  rw [coloring, if_neg (by decide), inputWidth, if_neg h1, if_neg h2, if_neg h3]

/-- The directions of masked pixels, `rgb_net.py:101-105`: `dirs` are the directions of each element of the batch, `mask` is flattened over all its dimensions. -/
def maskedDirs {D : Type} (dirs : List (List D)) (mask : List Bool) : Except Err (List (List D)) :=
  if ∀ d ∈ dirs, d.length = mask.length then .ok (dirs.map (fun d => (mask.zip d).filterMap (fun p => if p.1 then some p.2 else none))) else .error .index

/-- Each direction is the one of its own masked pixel when the batch has one element; with more, and a mask for each, an error is raised. -/
theorem maskedDirs_spec {D : Type} (f : Nat → D) (mask : List Bool) :
    maskedDirs [(List.range mask.length).map f] mask = .ok [((List.range mask.length).filter (fun i => mask.getD i false)).map f] ∧
    ∀ (dirs : List (List D)) (R : Nat), 2 ≤ dirs.length → 0 < R → (∀ d ∈ dirs, d.length = R) → mask.length = dirs.length * R → maskedDirs dirs mask = .error .index := by
  constructor
  · unfold maskedDirs
    rw [if_pos (by simp)]
    simp only [List.map_cons, List.map_nil]
    congr 2
    have key : ∀ (mask : List Bool) (g : Nat → D), (mask.zip ((List.range mask.length).map g)).filterMap (fun p => if p.1 then some p.2 else none) = ((List.range mask.length).filter (fun i => mask.getD i false)).map g := by
      intro mask
      induction mask with
      | nil => intro g; rfl
      | cons b mask ih =>
        intro g
        have h1 := ih (fun i => g (i + 1))
        rw [List.length_cons, List.range_succ_eq_map, List.map_cons, List.zip_cons_cons, List.filterMap_cons, List.filter_cons, List.filter_map]
        rw [List.map_map]
        have e1 : (g ∘ Nat.succ) = (fun i => g (i + 1)) := rfl
        have e2 : ((fun i => (b :: mask).getD i false) ∘ Nat.succ) = (fun i => mask.getD i false) := by
          funext i
          simp
        rw [e1, h1, e2]
        cases b
        · simp [Function.comp_def]
        · simp [Function.comp_def]
    exact key mask f
  · intro dirs R h2 hR hd hm
    unfold maskedDirs
    rw [if_neg]
    intro hall
    obtain ⟨d, l, rfl⟩ := List.exists_cons_of_ne_nil (List.ne_nil_of_length_pos (by omega : 0 < dirs.length))
    have h := hall d (List.mem_cons_self ..)
    rw [hd d (List.mem_cons_self ..), hm] at h
    have : 2 * R ≤ (d :: l).length * R := Nat.mul_le_mul_right _ h2
    omega

/-- `tanh`, `rgb_net.py:135`. -/
noncomputable def out (x : ℝ) : ℝ := Real.tanh x

/-- Colours are strictly between -1 and 1. -/
theorem out_range (x : ℝ) : -1 < out x ∧ out x < 1 := by
  have hc := Real.cosh_pos x
  have h1 := Real.exp_pos x
  have h2 := Real.exp_pos (-x)
  unfold out
  rw [Real.tanh_eq_sinh_div_cosh, lt_div_iff₀ hc, div_lt_one hc, Real.sinh_eq, Real.cosh_eq]
  constructor <;> linarith

/-! ## Encoders -/

/-- `HarmonicTimeEncoder.forward`, `global_encoder.py:120-135`, for one frame: `stamp` is the last dimension of the timestamps. -/
noncomputable def timeEncode (fs : List ℝ) (append : Bool) (divisor : ℝ) (stamp : Option (List ℝ)) : Except Err (List ℝ) :=
  match stamp with
  | none => .error .value
  | some [t] => .ok (embed fs append (fun _ : Fin 1 => t / divisor) none)
  | some _ => .error .value

/-- `get_encoding_dim`. -/
def encodingDim (n : Nat) (append : Bool) : Nat := outputDim 1 n append

/-- Encodings have the declared dimension; with the input appended different times have different encodings; missing times and times of more than one number are refused. -/
theorem timeEncode_spec (fs : List ℝ) (a : Bool) (div : ℝ) (hd : div ≠ 0) :
    (∀ t, ∃ e, timeEncode fs a div (some [t]) = .ok e ∧ e.length = encodingDim fs.length a) ∧
    (∀ t t', timeEncode fs true div (some [t]) = timeEncode fs true div (some [t']) → t = t') ∧
    timeEncode fs a div none = .error .value ∧ ∀ l, l.length ≠ 1 → timeEncode fs a div (some l) = .error .value := by
  refine ⟨?_, ?_, rfl, ?_⟩
  · intro t
    exact ⟨_, rfl, Harmonic.embed_length fs a _ none⟩
  · intro t t' h
    unfold timeEncode at h
    dsimp only at h
    injection h with h
    unfold embed at h
    rw [if_pos rfl, if_pos rfl] at h
    have h' := List.append_inj_right' h (by simp)
    simp only [List.ofFn_succ, List.ofFn_zero, List.cons.injEq, and_true] at h'
    exact (div_left_inj' hd).mp h'
  · intro l hl
    match l with
    | [] => rfl
    | [_] => exact absurd rfl hl
    | _ :: _ :: _ => rfl

/-- `SequenceAutodecoder.forward`, `global_encoder.py:75-86`. -/
def seqEncode {S C : Type} (decoder : S → C) (name : Option S) : Except Err C := match name with
  | none => .error .value
  | some s => .ok (decoder s)

/-- A sequence name is needed whatever else is given. -/
theorem seqEncode_error {S C : Type} (decoder : S → C) (name : Option S) : seqEncode decoder name = .error .value ↔ name = none := by
  cases name <;> simp [seqEncode]

/-! ## Image features -/

/-- Settings of the extractor; `dims` are the widths of the layers of the ResNet. -/
structure Cfg where
  dims : List Nat
  stages : List Nat
  proj : Nat
  avgPool : Bool
  masks : Bool
  images : Bool

/-- The width of a stage after its projection, `resnet_feature_extractor.py:104-121`. -/
def stageDim (proj d : Nat) : Nat := if 0 < proj ∧ proj < d then proj else d

/-- The features that are declared, `resnet_feature_extractor.py:84-131`: the stages in their order, masks, images. -/
def Cfg.declared (c : Cfg) : Except Err (List (String × Nat)) :=
  let mx := c.stages.foldl max 0
  if c.dims.length < mx then .error .index
  else .ok (((List.range mx).filter (fun s => decide (s + 1 ∈ c.stages))).map (fun s => ("res_layer_" ++ toString (s + 1), stageDim c.proj (c.dims.getD s 0))) ++
    (if c.masks then [("mask", 1)] else []) ++ (if c.images then [("image", 3)] else []))

/-- `get_feat_dims`. -/
def Cfg.featDims (c : Cfg) : Except Err Nat := match c.declared with
  | .error e => .error e
  | .ok l => .ok (l.map (·.2)).sum

/-- The features that are returned, `resnet_feature_extractor.py:146-230`: `imgs` and `maskCh` are the numbers of channels of the input if it is given; `f.mean(dims=…)` is a `TypeError`. -/
def Cfg.forward (c : Cfg) (imgs maskCh : Option Nat) : Except Err (List (String × Nat)) :=
  let mx := c.stages.foldl max 0
  let used := (List.range mx).filter (fun s => decide (s + 1 ∈ c.stages))
  if c.stages ≠ [] ∧ imgs = none then .error .assertion
  else if c.avgPool = true ∧ used ≠ [] then .error .type
  else if c.masks = true ∧ maskCh = none then .error .assertion
  else if c.images = true ∧ imgs = none then .error .assertion
  else .ok (used.map (fun s => ("res_layer_" ++ toString (s + 1), stageDim c.proj (c.dims.getD s 0))) ++
    (if c.masks then [("mask", maskCh.getD 0)] else []) ++ (if c.images then [("image", imgs.getD 0)] else []))

/-- The declared width is that of the features returned, whatever the stages, their order and repetitions, for images of three channels exactly if masks have one channel (three, as the documentation of `forward` says,
are two more than declared). -/
theorem featDims_ok (c : Cfg) (l : List (String × Nat)) (maskCh : Option Nat) (hc : c.featDims ≠ .error .index) (h : c.forward (some 3) maskCh = .ok l) :
    c.featDims = .ok (l.map (·.2)).sum ↔ (c.masks = true → maskCh = some 1) := by
  unfold Cfg.featDims Cfg.declared at *
  unfold Cfg.forward at h
  dsimp only at hc h ⊢
  by_cases hd : c.dims.length < c.stages.foldl max 0
  · rw [if_pos hd] at hc
    exact absurd rfl hc
  · rw [if_neg hd]
    dsimp only
    split_ifs at h with h1 h2 h3 h4 h5 h6 h7
    all_goals injection h with h; subst h
    all_goals first
      | (simp_all; done)
      | (cases maskCh with
         | none => simp_all
         | some k => simp_all <;> omega)

/-- Pooling over the image fails for every stage that is used. -/
theorem avgPool_fails (c : Cfg) (n : Nat) (m : Option Nat) (hp : c.avgPool = true) (s : Nat) (hs : s + 1 ∈ c.stages) : c.forward (some n) m = .error .type := by
  have hmax : s + 1 ≤ c.stages.foldl max 0 := by
    have key : ∀ (l : List Nat) (a : Nat), a ≤ l.foldl max a ∧ ∀ x ∈ l, x ≤ l.foldl max a := by
      intro l
      induction l with
      | nil => intro a; simp
      | cons b l ih =>
        intro a
        obtain ⟨h1, h2⟩ := ih (max a b)
        rw [List.foldl_cons]
        refine ⟨by omega, ?_⟩
        intro x hx
        rcases List.mem_cons.mp hx with rfl | hx
        · omega
        · exact h2 x hx
    exact (key c.stages 0).2 _ hs
  unfold Cfg.forward
  dsimp only
  rw [if_neg (by simp), if_pos]
  refine ⟨hp, ?_⟩
  exact List.ne_nil_of_mem (List.mem_filter.mpr ⟨List.mem_range.mpr hmax, by simpa using hs⟩)

/-- What is missing is noticed: images for stages or to return, masks to return. -/
theorem missing_inputs (c : Cfg) (n : Nat) (hp : c.avgPool = false) :
    (c.stages ≠ [] ∨ c.images = true → ∀ m, (c.masks = true → m ≠ none) → c.forward none m = .error .assertion) ∧ (c.masks = true → c.forward (some n) none = .error .assertion) := by
  unfold Cfg.forward
  dsimp only
  constructor
  · intro h m hm
    by_cases hs : c.stages = []
    · have hi : c.images = true := h.resolve_left (fun h' => h' hs)
      rw [if_neg (by simp [hs]), if_neg (by simp [hp]), if_neg (by tauto), if_pos ⟨hi, rfl⟩]
    · rw [if_pos ⟨hs, rfl⟩]
  · intro hm
    rw [if_neg (by simp), if_neg (by simp [hp]), if_pos ⟨hm, rfl⟩]

/-- Squared length of the features of a pixel. -/
def sq (v : List ℝ) : ℝ := (v.map (fun x => x * x)).sum

/-- `l2_norm` at one pixel (`resnet_feature_extractor.py:209-211`): `S` is the number of different stages. -/
noncomputable def l2 (S : Nat) (v : List ℝ) : List ℝ := v.map (fun x => x / max (Real.sqrt (sq v)) 1e-12 * (1 / Real.sqrt S))

theorem sq_scale (c : ℝ) (v : List ℝ) : sq (v.map (fun x => x * c)) = sq v * (c * c) := by
  unfold sq
  rw [List.map_map, ← List.sum_map_mul_right]
  congr 1
  refine List.map_congr_left (fun x _ => ?_)
  simp only [Function.comp]
  ring

theorem sq_nonneg' (v : List ℝ) : 0 ≤ sq v := by
  refine List.sum_nonneg (fun x hx => ?_)
  obtain ⟨y, -, rfl⟩ := List.mem_map.mp hx
  exact mul_self_nonneg y

/-- Features of each stage have squared length `1 / S` at every pixel (less where they nearly vanish), so that those of all stages together have length one at most. -/
theorem l2_spec (S : Nat) (hS : 0 < S) (v : List ℝ) : sq (l2 S v) ≤ 1 / S ∧ (1e-12 ≤ Real.sqrt (sq v) → sq (l2 S v) = 1 / S) := by
  have hS' : (0 : ℝ) < S := by exact_mod_cast hS
  set m := max (Real.sqrt (sq v)) 1e-12 with hm
  have hmp : 0 < m := lt_of_lt_of_le (by norm_num) (le_max_right _ _)
  have e : sq (l2 S v) = sq v / (m * m) * (1 / S) := by
    have : l2 S v = v.map (fun x => x * (1 / m * (1 / Real.sqrt S))) := by
      unfold l2
      refine List.map_congr_left (fun x _ => ?_)
      rw [← hm]
      ring
    rw [this, sq_scale]
    have hs : Real.sqrt S * Real.sqrt S = S := Real.mul_self_sqrt hS'.le
    have hsp : 0 < Real.sqrt S := Real.sqrt_pos.mpr hS'
    have : (1 / m * (1 / Real.sqrt S)) * (1 / m * (1 / Real.sqrt S)) = 1 / (m * m) * (1 / (Real.sqrt S * Real.sqrt S)) := by
      field_simp
    rw [this, hs]
    ring
  have hle : sq v ≤ m * m := by
    calc sq v = Real.sqrt (sq v) * Real.sqrt (sq v) := (Real.mul_self_sqrt (sq_nonneg' v)).symm
      _ ≤ m * m := mul_self_le_mul_self (Real.sqrt_nonneg _) (le_max_left _ _)
  constructor
  · rw [e]
    calc sq v / (m * m) * (1 / S) ≤ 1 * (1 / S) := mul_le_mul_of_nonneg_right ((div_le_one (mul_pos hmp hmp)).mpr hle) (by positivity)
      _ = 1 / S := one_mul _
  · intro h
    have hmm : m * m = sq v := by
      rw [hm, max_eq_left h, Real.mul_self_sqrt (sq_nonneg' v)]
    rw [e, hmm, div_self, one_mul]
    rw [← hmm]
    exact (mul_pos hmp hmp).ne'

/-- All stages together. -/
theorem l2_total (S : Nat) (hS : 0 < S) (vs : List (List ℝ)) (h : vs.length = S) : (vs.map (fun v => sq (l2 S v))).sum ≤ 1 := by
  have key : ∀ l : List (List ℝ), (l.map (fun v => sq (l2 S v))).sum ≤ l.length * (1 / (S : ℝ)) := by
    intro l
    induction l with
    | nil => simp
    | cons v l ih =>
      rw [List.map_cons, List.sum_cons, List.length_cons]
      have := (l2_spec S hS v).1
      push_cast
      linarith
  have hS' : (S : ℝ) ≠ 0 := by exact_mod_cast hS.ne'
  refine (key vs).trans (le_of_eq ?_)
  rw [h]
  field_simp

/-! ## Renders of a mesh -/

section mesh
variable {K : Type} [Field K] [LinearOrder K] [IsStrictOrderedRing K]

/-- The mean of the vertices. -/
def centre (vs : List (V3 K)) : V3 K := ⟨(vs.map (·.x)).sum / (vs.length : K), (vs.map (·.y)).sum / (vs.length : K), (vs.map (·.z)).sum / (vs.length : K)⟩

/-- The largest coordinate of the centred vertices (`rendered_mesh_dataset_map_provider.py:169`). -/
def scale (vs : List (V3 K)) : K := (vs.map (fun v => max (max |v.x - (centre vs).x| |v.y - (centre vs).y|) |v.z - (centre vs).z|)).foldl max 0

/-- The normalised vertices (lines 167-171); the scale zero is a division by zero in python (without vertices `max` fails already). -/
def normalised (vs : List (V3 K)) : Except Err (List (V3 K)) :=
  if scale vs = 0 then .error .zeroDivision
  else .ok (vs.map (fun v => ⟨(v.x - (centre vs).x) * (1 / scale vs), (v.y - (centre vs).y) * (1 / scale vs), (v.z - (centre vs).z) * (1 / scale vs)⟩))

theorem foldl_max_spec (l : List K) (a : K) : a ≤ l.foldl max a ∧ (∀ x ∈ l, x ≤ l.foldl max a) ∧ (l.foldl max a = a ∨ l.foldl max a ∈ l) := by
  induction l generalizing a with
  | nil => simp
  | cons b l ih =>
    obtain ⟨h1, h2, h3⟩ := ih (max a b)
    rw [List.foldl_cons]
    refine ⟨le_trans (le_max_left _ _) h1, ?_, ?_⟩
    · intro x hx
      rcases List.mem_cons.mp hx with rfl | hx
      · exact le_trans (le_max_right _ _) h1
      · exact h2 x hx
    · rcases h3 with h3 | h3
      · rcases max_choice a b with h | h
        · exact Or.inl (h3.trans h)
        · right
          rw [h3, h]
          exact List.mem_cons_self ..
      · exact Or.inr (List.mem_cons_of_mem _ h3)

/-- The vertices of a normalised mesh have mean zero. -/
theorem normalised_centred (vs ws : List (V3 K)) (h : normalised vs = .ok ws) : (ws.map (·.x)).sum = 0 ∧ (ws.map (·.y)).sum = 0 ∧ (ws.map (·.z)).sum = 0 := by
  have key : ∀ (g : V3 K → K) (l : List (V3 K)) (c s : K), (l.map (fun v => (g v - c) * s)).sum = ((l.map g).sum - (l.length : K) * c) * s := by
    intro g l c s
    induction l with
    | nil => simp
    | cons v l ih =>
      simp only [List.map_cons, List.sum_cons, List.length_cons, ih]
      push_cast
      ring
  unfold normalised at h
  split_ifs at h with hz
  injection h with h
  subst h
  have hne : (vs.length : K) ≠ 0 := by
    intro h0
    have : vs = [] := List.length_eq_zero_iff.mp (by exact_mod_cast h0)
    subst this
    exact hz rfl
  simp only [List.map_map, Function.comp_def]
  rw [key (·.x), key (·.y), key (·.z)]
  simp only [centre, mul_div_cancel₀ _ hne, sub_self, zero_mul, and_self]

/-- Normalised meshes fill the cube from -1 to 1: no coordinate is outside and some coordinate is on its border.  A mesh whose vertices coincide is an error. -/
theorem normalised_spec (vs : List (V3 K)) :
    (normalised vs = .error .zeroDivision ↔ ∀ v ∈ vs, v = centre vs) ∧
    ∀ ws, normalised vs = .ok ws → (∀ w ∈ ws, |w.x| ≤ 1 ∧ |w.y| ≤ 1 ∧ |w.z| ≤ 1) ∧ ∃ w ∈ ws, |w.x| = 1 ∨ |w.y| = 1 ∨ |w.z| = 1 := by
  obtain ⟨h0, hle, hmem⟩ := foldl_max_spec (vs.map (fun v => max (max |v.x - (centre vs).x| |v.y - (centre vs).y|) |v.z - (centre vs).z|)) 0
  have hs : ∀ v ∈ vs, |v.x - (centre vs).x| ≤ scale vs ∧ |v.y - (centre vs).y| ≤ scale vs ∧ |v.z - (centre vs).z| ≤ scale vs := by
    intro v hv
    have := hle _ (List.mem_map_of_mem (f := fun v => max (max |v.x - (centre vs).x| |v.y - (centre vs).y|) |v.z - (centre vs).z|) hv)
    exact ⟨le_trans (le_trans (le_max_left _ _) (le_max_left _ _)) this, le_trans (le_trans (le_max_right _ _) (le_max_left _ _)) this, le_trans (le_max_right _ _) this⟩
  constructor
  · unfold normalised
    constructor
    · intro h v hv
      split_ifs at h with hz
      obtain ⟨a, b, c⟩ := hs v hv
      rw [hz] at a b c
      have ax := sub_eq_zero.mp (abs_eq_zero.mp (le_antisymm a (abs_nonneg _)))
      have bx := sub_eq_zero.mp (abs_eq_zero.mp (le_antisymm b (abs_nonneg _)))
      have cx := sub_eq_zero.mp (abs_eq_zero.mp (le_antisymm c (abs_nonneg _)))
      exact V3.ext ax bx cx
    · intro h
      rw [if_pos]
      rcases hmem with hm | hm
      · exact hm
      · obtain ⟨v, hv, he⟩ := List.mem_map.mp hm
        have := h v hv
        rw [scale, ← he, ← this]
        simp
  · intro ws hw
    unfold normalised at hw
    split_ifs at hw with hz
    injection hw with hw
    subst hw
    have hpos : 0 < scale vs := lt_of_le_of_ne h0 (Ne.symm hz)
    have habs : ∀ t : K, |t * (1 / scale vs)| = |t| / scale vs := by
      intro t
      rw [abs_mul, abs_of_pos (by positivity : (0 : K) < 1 / scale vs)]
      ring
    constructor
    · intro w hw
      obtain ⟨v, hv, rfl⟩ := List.mem_map.mp hw
      obtain ⟨a, b, c⟩ := hs v hv
      simp only [habs]
      exact ⟨(div_le_one hpos).mpr a, (div_le_one hpos).mpr b, (div_le_one hpos).mpr c⟩
    · rcases hmem with hm | hm
      · exact absurd hm hz
      · obtain ⟨v, hv, he⟩ := List.mem_map.mp hm
        refine ⟨_, List.mem_map_of_mem hv, ?_⟩
        simp only [habs]
        have he' : max (max |v.x - (centre vs).x| |v.y - (centre vs).y|) |v.z - (centre vs).z| = scale vs := he
        rcases max_choice (max |v.x - (centre vs).x| |v.y - (centre vs).y|) |v.z - (centre vs).z| with h | h
        · rcases max_choice |v.x - (centre vs).x| |v.y - (centre vs).y| with h' | h'
          · left
            rw [h, h'] at he'
            rw [he', div_self hz]
          · right; left
            rw [h, h'] at he'
            rw [he', div_self hz]
        · right; right
          rw [h] at he'
          rw [he', div_self hz]

/-- The sphere of radius one that the comment in the code promises is left by the corners of a cube. -/
theorem not_in_sphere : ∃ vs ws : List (V3 ℚ), normalised vs = .ok ws ∧ ∃ w ∈ ws, 1 < w.x * w.x + w.y * w.y + w.z * w.z := by
  have hc : centre ([⟨1, 1, 1⟩, ⟨-1, -1, -1⟩] : List (V3 ℚ)) = ⟨0, 0, 0⟩ := by norm_num [centre]
  have hs : scale ([⟨1, 1, 1⟩, ⟨-1, -1, -1⟩] : List (V3 ℚ)) = 1 := by norm_num [scale, hc]
  refine ⟨[⟨1, 1, 1⟩, ⟨-1, -1, -1⟩], [⟨1, 1, 1⟩, ⟨-1, -1, -1⟩], ?_, ⟨1, 1, 1⟩, by simp, by norm_num⟩
  norm_num [normalised, hc, hs]

/-- Azimuths of the views (line 175); `torch.linspace` with one step is its start. -/
def azim (r : K) (n : Nat) : List K := (List.range n).map (fun i : Nat => (-r + (if n = 1 then 0 else 2 * r / ((n : K) - 1)) * (i : K)) + 180)

/-- The views go from one end of the range to the other in equal steps.  With the default of 180 degrees the last view is the first one again; all others are different. -/
theorem azim_spec (r : K) (hr : 0 < r) (n : Nat) (hn : 2 ≤ n) : (azim r n).length = n ∧ (azim r n)[0]? = some (180 - r) ∧ (azim r n)[n - 1]? = some (180 + r) ∧
    ∀ (i j : Nat) (a b : K), i < j → (azim r n)[i]? = some a → (azim r n)[j]? = some b → 0 < b - a ∧ (b - a = 360 → r = 180 → i = 0 ∧ j = n - 1) := by
  have hn1 : (0 : K) < (n : K) - 1 := by
    have : (2 : K) ≤ (n : K) := by exact_mod_cast hn
    linarith
  have hget : ∀ i < n, (azim r n)[i]? = some ((-r + 2 * r / ((n : K) - 1) * (i : K)) + 180) := by
    intro i hi
    unfold azim
    rw [List.getElem?_map, List.getElem?_range hi, if_neg (by omega)]
    rfl
  have hcast : ((n - 1 : Nat) : K) = (n : K) - 1 := by
    rw [Nat.cast_sub (by omega)]
    simp
  refine ⟨by simp [azim], ?_, ?_, ?_⟩
  · rw [hget 0 (by omega)]
    congr 1
    simp
    ring
  · rw [hget (n - 1) (by omega), hcast]
    congr 1
    field_simp
    ring
  · intro i j a b hij ha hb
    have hi : i < n := by
      by_contra hc
      rw [azim, List.getElem?_eq_none (by simp; omega)] at ha
      cases ha
    have hj : j < n := by
      by_contra hc
      rw [azim, List.getElem?_eq_none (by simp; omega)] at hb
      cases hb
    rw [hget i hi] at ha
    rw [hget j hj] at hb
    have ha' := Option.some.inj ha
    have hb' := Option.some.inj hb
    have hst : 0 < 2 * r / ((n : K) - 1) := by positivity
    have e : b - a = 2 * r / ((n : K) - 1) * ((j : K) - (i : K)) := by
      rw [← ha', ← hb']
      ring
    have hji : (0 : K) < (j : K) - (i : K) := by
      have : (i : K) < (j : K) := by exact_mod_cast hij
      linarith
    refine ⟨by rw [e]; exact mul_pos hst hji, ?_⟩
    intro h360 hr180
    rw [e, hr180, div_mul_eq_mul_div, div_eq_iff (ne_of_gt hn1)] at h360
    have h1 : (j : K) - (i : K) = (n : K) - 1 := by linarith
    have h2 : (j : K) + 1 = (n : K) + (i : K) := by linarith
    have h3 : j + 1 = n + i := by exact_mod_cast h2
    omega

end mesh

example : coloring "no_view_dir" 6 3 3 4 0 none 3 none = .error .runtime := by decide
example : coloring "idr" 9 3 3 4 0 none 3 none = .ok 3 := by decide
example : (Cfg.mk [64, 128, 256, 512] [1, 4, 1] 100 false true true).featDims = .ok 168 := by decide
example : maskedDirs [[10, 11, 12]] [true, false, true] = .ok [[10, 12]] := by decide
example : azim (180 : ℚ) 3 = [0, 180, 360] := by norm_num [azim, List.range_succ]

end P3D.CondNets
