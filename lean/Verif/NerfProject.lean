/-
Model of the NeRF project: ray chunks and ray cache of the raysampler, stratified depths, the raymarcher's weights, the assembly of rendered chunks to images, the dataset and the circular trajectory.

* `projects/nerf/nerf/raysampler.py:73-103` (ProbabilisticRaysampler), `106-365` (NeRFRaysampler)
* `projects/nerf/nerf/raymarcher.py:30-73` (EmissionAbsorptionNeRFRaymarcher)
* `projects/nerf/nerf/nerf_renderer.py:269-371` (RadianceFieldRenderer.forward)
* `projects/nerf/nerf/dataset.py:89-132` (get_nerf_datasets)
* `projects/nerf/nerf/eval_video_utils.py:76-105` (the circular trajectory)

A ray is identified by its index in the flattened full grid of a batch, `view(n_pixels, -1)`: the rays of camera `b` of a batch are `b * h * w, …, (b + 1) * h * w - 1`.  Random permutations and
numbers are arguments.  Numbers are elements of an ordered field, of ℝ for the trajectory.  Not modelled: the networks, `sample_pdf` (it is in `P3D.SamplePdf`), the knots (the same curves are in
`P3D.Trajectory`), image interpolation, downloads, metrics, devices, rounding.
-/
import Verif.Vec3
import Mathlib.Algebra.Order.Field.Basic
import Mathlib.Algebra.Field.Rat
import Mathlib.Algebra.Order.Ring.Rat
import Mathlib.Analysis.SpecialFunctions.Trigonometric.Basic
import Mathlib.Data.List.Sort
import Mathlib.Data.List.Range
import Mathlib.Tactic.Linarith
import Mathlib.Tactic.LinearCombination
import Mathlib.Tactic.Ring
import Mathlib.Tactic.NormNum
import Mathlib.Tactic.FieldSimp

set_option linter.unusedSectionVars false

namespace P3D.NerfProject

inductive Err
  /-- ZeroDivisionError -/
  | zeroDiv
  /-- RuntimeError of `torch.arange` or of `view` -/
  | runtime
  /-- KeyError: no such camera in the cache -/
  | key
  /-- IndexError -/
  | index
  /-- NotImplementedError, "Ray caching works only for batches with a single camera!" -/
  | batch
  /-- ValueError, "There has to be one chunk for precaching rays!" -/
  | precache
  /-- ValueError, "There are redundant cameras!" -/
  | redundant
  /-- RuntimeError of `torch.stack`: images of different sizes -/
  | stack
  /-- ValueError, "Non-isotropic scaling is not allowed." -/
  | scale
  deriving DecidableEq

/-! ### Chunks of rays -/

/-- `get_n_chunks`, `raysampler.py:176-192`: hw pixels in an image. -/
def nChunks (hw batch cs : Nat) : Except Err Nat := if cs = 0 then .error .zeroDiv else .ok ((hw * batch + cs - 1) / cs)

/-- The rays of a chunk in evaluation, `raysampler.py:338-347`: `n` rays in the full grid of the batch. -/
def selRays (n batch cs idx : Nat) : Except Err (List Nat) :=
  let start := idx * cs * batch
  let stop := min (start + cs) n
  if stop < start then .error .runtime else .ok (List.range' start (stop - start))

/-- `.view(batch_size, sel_rays.numel() // batch_size, -1)`, `raysampler.py:350-357`. -/
def toRows (batch : Nat) (l : List Nat) : Except Err (List (List Nat)) :=
  if batch * (l.length / batch) = l.length then .ok ((List.range batch).map fun b => (l.drop (b * (l.length / batch))).take (l.length / batch)) else .error .runtime

/-- One evaluated chunk: the rays of each row. -/
def chunk (hw batch cs idx : Nat) : Except Err (List (List Nat)) := do
  let s ← selRays (batch * hw) batch cs idx
  toRows batch s

/-- A full evaluation pass, `nerf_renderer.py:321-355`, reading `chunk_outputs[0]`: the chunks are concatenated along the rays and viewed as images; the result lists the rays whose renders become the pixels, row by row. -/
def renderAll (hw batch cs : Nat) : Except Err (List Nat) := do
  let n ← nChunks hw batch cs
  let chunks ← (List.range n).mapM (fun i => chunk hw batch cs i)
  if n = 0 then throw .index
  let rows := (List.range batch).map fun b => (chunks.map (fun c => c.getD b [])).flatten
  if rows.flatten.length % hw = 0 then pure rows.flatten else .error .runtime

/-! ### The cache -/

variable {K : Type} [Field K] [LinearOrder K] [IsStrictOrderedRing K]

/-- The cache after `precache_rays`, `raysampler.py:202-236`: `rays` is the full grid of a camera, `hw` pixels, `pts` points per ray.  In evaluation mode the whole grid is stored, in training mode the rays
of the beginning of a permutation.  The first part tells whether an exception is raised, the second is the cache afterwards, which keeps what was stored before the exception. -/
def precache {C R : Type} (rays : C → List R) (hw pts : Nat) (select : List R → List R) : List (Nat × List R) → List (C × Nat) → Except Err Unit × List (Nat × List R)
  | cache, l =>
    match nChunks hw 1 (hw * pts) with
    | .error e => (.error e, cache)
    | .ok k => if k ≠ 1 then (.error .precache, cache) else go cache l
where
  go : List (Nat × List R) → List (C × Nat) → Except Err Unit × List (Nat × List R)
    | cache, [] => (.ok (), cache)
    | cache, (c, h) :: l => if (cache.map (·.1)).contains h then (.error .redundant, cache) else go (cache ++ [(h, select (rays c))]) l

/-- The rays of a call with or without a hash, evaluation mode, `raysampler.py:309-357`, chunk of the full grid of the batch. -/
def forwardEval {C R : Type} (rays : C → List R) (cache : List (Nat × List R)) (cams : List C) (hash : Option Nat) (cs idx : Nat) : Except Err (List R) :=
  match hash with
  | none => do
    let full := (cams.map rays).flatten
    let s ← selRays full.length cams.length cs idx
    pure (s.filterMap (fun i => full[i]?))
  | some h =>
    if cams.length ≠ 1 then .error .batch
    else match cache.lookup h with
      | none => .error .key
      | some full => do
        let s ← selRays full.length 1 cs idx
        pure (s.filterMap (fun i => full[i]?))

/-! ### Depths and weights -/

/-- The lower and upper ends of the strata, `raysampler.py:254-258`: `n` depths `z 0, …, z (n - 1)`. -/
def lower (z : Nat → K) (i : Nat) : K := if i = 0 then z 0 else (z i + z (i - 1)) / 2
def upper (z : Nat → K) (n i : Nat) : K := if i + 1 = n then z i else (z (i + 1) + z i) / 2

/-- `_stratify_ray_bundle`, `raysampler.py:260`. -/
def stratify (z u : Nat → K) (n i : Nat) : K := lower z i + (upper z n i - lower z i) * u i

/-- When depths are stratified, `raysampler.py:359-363`. -/
def stratified (strat stratTest training caching : Bool) : Bool := ((strat && training) || (stratTest && !training)) && !caching

/-- Depths of the fine pass, `raysampler.py:90-96`. -/
def fineDepths (add : Bool) (z samples : List K) : List K := (if add then z ++ samples else samples).insertionSort (· ≤ ·)

/-- The weights of a ray, `raymarcher.py:66-70`, thickness 1: density times the product of `1 + eps - density` over the points in front; `t` is the product so far. -/
def weights (eps : K) : K → List K → List K
  | _, [] => []
  | t, d :: l => d * t :: weights eps (t * ((1 + eps) - d)) l

/-! ### The dataset -/

/-- `torch.chunk(rows, n, dim=0)`: pieces of the rounded up size. -/
def pieces {α : Type} (s : Nat) : Nat → List α → List (List α)
  | 0, _ => []
  | f + 1, l => if l = [] then [] else l.take s :: pieces s f (l.drop s)

/-- `torch.stack(torch.chunk(images, n_cameras, dim=0))`, `dataset.py:95`, an image being the list of its rows. -/
def splitImages {α : Type} (n : Nat) (rows : List α) : Except Err (List (List α)) :=
  let s := (rows.length + n - 1) / n
  let p := pieces s rows.length rows
  if p.all (fun x => x.length == s) then .ok p else .error .stack

/-- An entry of a dataset, `dataset.py:125`. -/
structure Item (α C : Type) where
  image : List α
  camera : C
  idx : Nat

/-- One of the three datasets, `dataset.py:122-130`. -/
def dataset {α C : Type} (images : List (List α)) (cams : List C) (split : List Nat) : Except Err (List (Item α C)) :=
  split.mapM fun i =>
    match images[i]?, cams[i]? with
    | some im, some c => .ok ⟨im, c, i⟩
    | _, _ => .error .index

/-- The scaling, `dataset.py:98-111`: the size of the images which are returned. -/
def rescale (h w h' w' : K) : Except Err (K × K) :=
  let s0 := h' / h
  let s1 := w' / w
  if 1 / 1000 < |s0 - s1| then .error .scale
  else if (s0 + s1) / 2 = 1 then .ok (h, w) else .ok (h', w')

/-! ### The circular trajectory -/

/-- The point of the trajectory for an angle, `eval_video_utils.py:101-105`: radius, eigenvectors and mean of the cameras. -/
noncomputable def circle (r : ℝ) (e1 e2 m : V3 ℝ) (a : ℝ) : V3 ℝ := m + (r * Real.cos a) • e1 + (r * Real.sin a) • e2

/-- `torch.linspace(0, 2π, n)`. -/
noncomputable def angle (n i : Nat) : ℝ := if n = 1 then 0 else i * (2 * Real.pi) / (n - 1)

/-! ### Chunks: theorems -/

theorem mapM_ok {α β : Type} (f : α → Except Err β) (g : α → β) (l : List α) (h : ∀ a ∈ l, f a = .ok (g a)) : l.mapM f = .ok (l.map g) := by
  induction l with
  | nil => rfl
  | cons a l ih => rw [List.mapM_cons, h a (by simp), ih (fun b hb => h b (by simp [hb]))]; rfl

theorem mapM_mem {α β : Type} (f : α → Except Err β) (l : List α) (r : List β) (h : l.mapM f = .ok r) : (∀ b ∈ r, ∃ a ∈ l, f a = .ok b) := by
  induction l generalizing r with
  | nil => cases h; simp
  | cons a l ih =>
    rw [List.mapM_cons] at h
    cases hf : f a with
    | error e => rw [hf] at h; cases h
    | ok b =>
      rw [hf] at h
      cases hl : l.mapM f with
      | error e => rw [hl] at h; cases h
      | ok t =>
        rw [hl] at h
        cases h
        intro c hc
        rcases List.mem_cons.1 hc with rfl | hc
        · exact ⟨a, by simp, hf⟩
        · obtain ⟨x, hx, he⟩ := ih t hl c hc
          exact ⟨x, by simp [hx], he⟩

/-- Consecutive pieces of `cs` numbers cover an interval. -/
theorem range'_pieces (hw cs k : Nat) : ((List.range k).map (fun i => List.range' (i * cs) (min (i * cs + cs) hw - i * cs))).flatten = List.range (min (k * cs) hw) := by
  induction k with
  | zero => simp
  | succ k ih =>
    rw [List.range_succ, List.map_append, List.flatten_append, ih]
    simp only [List.map_cons, List.map_nil, List.flatten_cons, List.flatten_nil, List.append_nil]
    have e : min ((k + 1) * cs) hw = min (k * cs) hw + (min (k * cs + cs) hw - k * cs) := by
      rw [Nat.succ_mul]
      generalize k * cs = x
      omega
    rw [e, List.range_eq_range', List.range_eq_range', ← List.range'_append_1]
    congr 1
    by_cases h : k * cs ≤ hw
    · rw [Nat.zero_add, Nat.min_eq_left h]
    · have : min (k * cs + cs) hw - k * cs = 0 := by omega
      rw [this]; rfl

/-- **For one camera an evaluation renders every pixel once and in its place**, for every chunk size. -/
theorem renderAll_one (hw cs : Nat) (hh : 0 < hw) (hcs : 0 < cs) : renderAll hw 1 cs = .ok (List.range hw) := by
  have hn : nChunks hw 1 cs = .ok ((hw + cs - 1) / cs) := by
    unfold nChunks
    rw [if_neg (by omega), Nat.mul_one]
  have hstart : ∀ i, i < (hw + cs - 1) / cs → i * cs < hw := by
    intro i hi
    have h1 : (i + 1) * cs ≤ hw + cs - 1 := (Nat.le_div_iff_mul_le hcs).1 hi
    rw [Nat.succ_mul] at h1
    omega
  have hc : ∀ i ∈ List.range ((hw + cs - 1) / cs), chunk hw 1 cs i = .ok [List.range' (i * cs) (min (i * cs + cs) hw - i * cs)] := by
    intro i hi
    have h2 := hstart i (List.mem_range.1 hi)
    simp only [chunk, selRays, Nat.mul_one, Nat.one_mul, bind, Except.bind]
    rw [if_neg (by omega)]
    simp only [toRows, Nat.div_one, Nat.one_mul, if_true]
    simp [List.range_succ]
  have hall : hw ≤ ((hw + cs - 1) / cs) * cs := by
    have := Nat.lt_div_mul_add (a := hw + cs - 1) hcs
    omega
  simp only [renderAll, hn, bind, Except.bind, mapM_ok _ _ _ hc]
  have e : ((List.range 1).map fun b => (((List.range ((hw + cs - 1) / cs)).map (fun i => [List.range' (i * cs) (min (i * cs + cs) hw - i * cs)])).map (fun c => c.getD b [])).flatten).flatten = List.range hw := by
    have : List.range 1 = [0] := rfl
    rw [this, List.map_cons, List.map_nil, List.flatten_cons, List.flatten_nil, List.append_nil, List.map_map]
    have e2 : ((fun c : List (List Nat) => c.getD 0 []) ∘ fun i => [List.range' (i * cs) (min (i * cs + cs) hw - i * cs)]) = fun i => List.range' (i * cs) (min (i * cs + cs) hw - i * cs) := by
      funext i; rfl
    rw [e2, range'_pieces, Nat.min_eq_right hall]
  have hne : ¬ (hw + cs - 1) / cs = 0 := by
    have : 0 < (hw + cs - 1) / cs := Nat.div_pos (by omega) hcs
    omega
  rw [if_neg hne, e]
  simp [pure, Except.pure]

example : renderAll 10 1 4 = .ok (List.range 10) := renderAll_one 10 4 (by decide) (by decide)

/-- **Several cameras in one chunk** are rendered completely and in order. -/
theorem renderAll_whole (hw batch cs : Nat) (hh : 0 < hw) (hb : 0 < batch) (hcs : batch * hw ≤ cs) : renderAll hw batch cs = .ok (List.range (batch * hw)) := by
  have hpos : 0 < batch * hw := Nat.mul_pos hb hh
  have hn : nChunks hw batch cs = .ok 1 := by
    unfold nChunks
    rw [if_neg (by omega)]
    congr 1
    rw [Nat.mul_comm hw batch, Nat.div_eq_iff (by omega)]
    omega
  have hrow : chunk hw batch cs 0 = .ok ((List.range batch).map fun b => List.range' (b * hw) hw) := by
    simp only [chunk, selRays, Nat.zero_mul, Nat.zero_add, Nat.min_eq_right hcs, bind, Except.bind]
    rw [if_neg (by omega)]
    simp only [toRows, List.length_range', Nat.sub_zero, Nat.mul_div_cancel_left _ hb, if_true]
    congr 1
    refine List.map_congr_left fun b hbm => ?_
    have hbm := List.mem_range.1 hbm
    have h1 : b * hw + hw ≤ batch * hw := by
      have := Nat.mul_le_mul_right hw (Nat.succ_le_of_lt hbm)
      rwa [Nat.succ_mul] at this
    refine List.ext_getElem (by simp; omega) fun i h1 h2 => ?_
    simp
  simp only [renderAll, hn, bind, Except.bind]
  have : List.range 1 = [0] := rfl
  rw [this, List.mapM_cons, hrow]
  simp only [bind, Except.bind, List.mapM_nil, pure, Except.pure, List.map_cons, List.map_nil, List.flatten_cons, List.flatten_nil, List.append_nil]
  have hg : ((List.range batch).map fun b => ((List.range batch).map fun b => List.range' (b * hw) hw).getD b []) = (List.range batch).map fun b => List.range' (b * hw) hw := by
    refine List.map_congr_left fun b hbm => ?_
    have hbm := List.mem_range.1 hbm
    rw [List.getD_eq_getElem?_getD, List.getElem?_map, List.getElem?_range hbm]
    rfl
  rw [hg]
  have hf : ((List.range batch).map fun b => List.range' (b * hw) hw).flatten = List.range (batch * hw) := by
    have := range'_pieces (batch * hw) hw batch
    rw [Nat.min_self] at this
    rw [← this]
    congr 1
    refine List.map_congr_left fun b hbm => ?_
    have hbm := List.mem_range.1 hbm
    have h1 : b * hw + hw ≤ batch * hw := by
      have := Nat.mul_le_mul_right hw (Nat.succ_le_of_lt hbm)
      rwa [Nat.succ_mul] at this
    congr 1
    omega
  rw [hf]
  simp

/-- **Several cameras in several chunks lose rays**: when the rays of at least two cameras do not fit into one chunk, an evaluation raises or leaves out ray number `cs`; chunk `i` starts at
`i * cs * batch` but has only `cs` rays. -/
theorem renderAll_loses (hw batch cs : Nat) (hb : 2 ≤ batch) (hcs : 0 < cs) (hlt : cs < batch * hw) (r : List Nat) (h : renderAll hw batch cs = .ok r) : cs ∉ r ∧ r ≠ List.range (batch * hw) := by
  have key : cs ∉ r := by
    unfold renderAll at h
    cases hn : nChunks hw batch cs with
    | error e => rw [hn] at h; cases h
    | ok n =>
      rw [hn] at h
      simp only [bind, Except.bind] at h
      cases hm : (List.range n).mapM (fun i => chunk hw batch cs i) with
      | error e => rw [hm] at h; cases h
      | ok chunks =>
        rw [hm] at h
        simp only at h
        split at h
        · cases h
        simp only [pure, Except.pure] at h
        split at h
        · have hr := Except.ok.inj h
          rw [← hr]
          intro hmem
          obtain ⟨row, hrow, hin⟩ := List.mem_flatten.1 hmem
          obtain ⟨b, _, rfl⟩ := List.mem_map.1 hrow
          obtain ⟨piece, hp, hin⟩ := List.mem_flatten.1 hin
          obtain ⟨c, hc, rfl⟩ := List.mem_map.1 hp
          obtain ⟨i, _, hi⟩ := mapM_mem _ _ _ hm c hc
          have hsub : ∃ s, selRays (batch * hw) batch cs i = .ok s ∧ cs ∈ s := by
            unfold chunk at hi
            cases hs : selRays (batch * hw) batch cs i with
            | error e => rw [hs] at hi; cases hi
            | ok s =>
              refine ⟨s, rfl, ?_⟩
              rw [hs] at hi
              simp only [bind, Except.bind, toRows] at hi
              split at hi
              · have hc' := Except.ok.inj hi
                rw [← hc', List.getD_eq_getElem?_getD, List.getElem?_map] at hin
                cases hbr : (List.range batch)[b]? with
                | none => rw [hbr] at hin; simp at hin
                | some b' =>
                  rw [hbr] at hin
                  exact List.mem_of_mem_drop (List.mem_of_mem_take hin)
              · cases hi
          obtain ⟨s, hs, hin⟩ := hsub
          unfold selRays at hs
          simp only at hs
          split at hs
          · cases hs
          · have := Except.ok.inj hs
            rw [← this, List.mem_range'_1] at hin
            cases i with
            | zero => (simp at hin)
            | succ i =>
              have h1 : cs * 2 ≤ (i + 1) * cs * batch := by
                have : 1 * cs * 2 ≤ (i + 1) * cs * batch := Nat.mul_le_mul (Nat.mul_le_mul_right _ (by omega)) hb
                omega
              omega
        · cases h
  exact ⟨key, fun e => key (e ▸ List.mem_range.2 hlt)⟩

example : renderAll 4 2 4 = .ok [0, 1, 2, 3] ∧ renderAll 4 2 3 = .error .runtime := by decide

/-! ### The cache: theorems -/

section Cache
variable {C R : Type} (rays : C → List R)

theorem precache_go (select : List R → List R) (cache : List (Nat × List R)) (l : List (C × Nat)) (hn : ((cache.map (·.1)) ++ l.map (·.2)).Nodup) :
    precache.go rays select cache l = (.ok (), cache ++ l.map (fun c => (c.2, select (rays c.1)))) := by
  induction l generalizing cache with
  | nil => simp [precache.go]
  | cons a l ih =>
    obtain ⟨c, h⟩ := a
    have hnot : h ∉ cache.map (·.1) := by
      intro hm
      exact (List.nodup_append.1 hn).2.2 h hm h (by simp) rfl
    unfold precache.go
    rw [if_neg (by simpa using hnot), ih]
    · simp
    · simpa using hn

/-- **Precaching in evaluation mode stores the full grid of every camera** when there is at least one pixel and one point per ray and all hashes are new and different. -/
theorem precache_ok (hw pts : Nat) (hh : 0 < hw) (hp : 0 < pts) (cache : List (Nat × List R)) (l : List (C × Nat)) (hn : ((cache.map (·.1)) ++ l.map (·.2)).Nodup) :
    precache rays hw pts id cache l = (.ok (), cache ++ l.map (fun c => (c.2, rays c.1))) := by
  have h1 : nChunks hw 1 (hw * pts) = .ok 1 := by
    have hpos : 0 < hw * pts := Nat.mul_pos hh hp
    have hle : hw ≤ hw * pts := Nat.le_mul_of_pos_right _ hp
    unfold nChunks
    rw [if_neg (by omega)]
    congr 1
    rw [Nat.div_eq_iff hpos]
    omega
  simp only [precache, h1]
  rw [if_neg (by simp), precache_go rays id cache l hn]
  simp

/-- **A repeated hash is refused**, but the cameras before it stay in the cache. -/
theorem precache_redundant (hw pts : Nat) (hh : 0 < hw) (hp : 0 < pts) (l m : List (C × Nat)) (c : C) (h : Nat) (hn : (l.map (·.2)).Nodup) (hin : h ∈ l.map (·.2)) :
    precache rays hw pts id [] (l ++ (c, h) :: m) = (.error .redundant, l.map (fun c => (c.2, rays c.1))) := by
  have h1 : nChunks hw 1 (hw * pts) = .ok 1 := by
    have hpos : 0 < hw * pts := Nat.mul_pos hh hp
    have hle : hw ≤ hw * pts := Nat.le_mul_of_pos_right _ hp
    unfold nChunks
    rw [if_neg (by omega)]
    congr 1
    rw [Nat.div_eq_iff hpos]
    omega
  have key : ∀ (l : List (C × Nat)) (cache : List (Nat × List R)), ((cache.map (·.1)) ++ l.map (·.2)).Nodup → h ∈ (cache.map (·.1)) ++ l.map (·.2) →
      precache.go rays id cache (l ++ (c, h) :: m) = (.error .redundant, cache ++ l.map (fun c => (c.2, rays c.1))) := by
    intro l
    induction l with
    | nil =>
      intro cache _ hm
      have : h ∈ cache.map (·.1) := by simpa using hm
      rw [List.nil_append]
      unfold precache.go
      rw [if_pos (by simpa using this)]
      simp
    | cons a l ih =>
      intro cache hnd hm
      obtain ⟨c', h'⟩ := a
      have hnot : h' ∉ cache.map (·.1) := by
        intro hm'
        exact (List.nodup_append.1 hnd).2.2 h' hm' h' (by simp) rfl
      rw [List.cons_append]
      unfold precache.go
      rw [if_neg (by simpa using hnot), ih]
      · simp
      · simpa using hnd
      · simpa using hm
  simp only [precache, h1]
  rw [if_neg (by simp), key l [] (by simpa using hn) (by simpa using hin)]
  simp

/-- **Cached rays are the rays of the camera**: for a camera which was precached under a hash, a call with the hash gives the same rays as a call without, for every chunk. -/
theorem cached_same (hw pts : Nat) (hh : 0 < hw) (hp : 0 < pts) (l : List (C × Nat)) (hn : (l.map (·.2)).Nodup) (c : C) (h : Nat) (hin : (c, h) ∈ l) (cs idx : Nat) :
    forwardEval rays (precache rays hw pts id [] l).2 [c] (some h) cs idx = forwardEval rays [] [c] none cs idx := by
  rw [precache_ok rays hw pts hh hp [] l (by simpa using hn)]
  have hl : (l.map (fun c => (c.2, rays c.1))).lookup h = some (rays c) := by
    clear hh hp
    induction l with
    | nil => simp at hin
    | cons a l ih =>
      rw [List.map_cons, List.nodup_cons] at hn
      rw [List.map_cons, List.lookup_cons]
      rcases List.mem_cons.1 hin with rfl | hin'
      · simp
      · have hne : h ≠ a.2 := by
          intro e
          exact hn.1 (List.mem_map.2 ⟨(c, h), hin', e⟩)
        have : (h == a.2) = false := by simpa using hne
        rw [this]
        exact ih hn.2 hin'
  simp only [forwardEval, List.nil_append, hl]
  simp

/-- **Rays cached while training are incomplete**: the permutation of the training branch keeps only `n_rays_per_image` of them, and those are all a later evaluation can see. -/
theorem cached_training (hw pts k : Nat) (hh : 0 < hw) (hp : 0 < pts) (perm : List R → List R) (hperm : ∀ l, (perm l).Perm l) (c : C) (h : Nat) (hc : (rays c).length = hw) (hk : k < hw) :
    (precache rays hw pts (fun l => (perm l).take k) [] [(c, h)]).2 = [(h, (perm (rays c)).take k)] ∧ ((perm (rays c)).take k).length = k ∧ k < (rays c).length := by
  have h1 : nChunks hw 1 (hw * pts) = .ok 1 := by
    have hpos : 0 < hw * pts := Nat.mul_pos hh hp
    have hle : hw ≤ hw * pts := Nat.le_mul_of_pos_right _ hp
    unfold nChunks
    rw [if_neg (by omega)]
    congr 1
    rw [Nat.div_eq_iff hpos]
    omega
  refine ⟨?_, ?_, by omega⟩
  · simp only [precache, h1]
    rw [if_neg (by simp), precache_go rays _ [] [(c, h)] (by simp)]
    rfl
  · rw [List.length_take, (hperm _).length_eq, hc]
    omega

end Cache

/-- **Cached rays serve single cameras only.** -/
theorem cached_batch {C R : Type} (rays : C → List R) (cache : List (Nat × List R)) (cams : List C) (h cs idx : Nat) (hb : cams.length ≠ 1) : forwardEval rays cache cams (some h) cs idx = .error .batch := by
  simp [forwardEval, hb]

example : forwardEval (fun c : Nat => [c, c + 1, c + 2]) (precache (fun c : Nat => [c, c + 1, c + 2]) 3 2 id [] [(10, 7), (20, 8)]).2 [20] (some 8) 2 1 = .ok [22] := by decide

/-! ### Depths and weights: theorems -/

/-- **Stratified depths stay in order and in range**: for increasing depths and random numbers in [0, 1] each lies in its own stratum, between the first and the last depth, and not before its predecessor. -/
theorem stratify_spec (z u : Nat → K) (n : Nat) (hz : ∀ i j, i ≤ j → j < n → z i ≤ z j) (hu : ∀ i, 0 ≤ u i ∧ u i ≤ 1) (i : Nat) (hi : i < n) :
    lower z i ≤ stratify z u n i ∧ stratify z u n i ≤ upper z n i ∧ z 0 ≤ stratify z u n i ∧ stratify z u n i ≤ z (n - 1) ∧ (i + 1 < n → stratify z u n i ≤ stratify z u n (i + 1)) := by
  have lo : ∀ i, i < n → z 0 ≤ lower z i ∧ lower z i ≤ z i := by
    intro i hi
    unfold lower
    split
    · rename_i h; subst h; exact ⟨le_refl _, le_refl _⟩
    · have h1 := hz (i - 1) i (by omega) hi
      have h2 := hz 0 (i - 1) (by omega) (by omega)
      constructor <;> linarith
  have up : ∀ i, i < n → z i ≤ upper z n i ∧ upper z n i ≤ z (n - 1) := by
    intro i hi
    unfold upper
    split
    · rename_i h
      have : n - 1 = i := by omega
      rw [this]; exact ⟨le_refl _, le_refl _⟩
    · have h1 := hz i (i + 1) (by omega) (by omega)
      have h2 := hz (i + 1) (n - 1) (by omega) (by omega)
      constructor <;> linarith
  have mid : ∀ i, i < n → lower z i ≤ stratify z u n i ∧ stratify z u n i ≤ upper z n i := by
    intro i hi
    have h1 : lower z i ≤ upper z n i := le_trans (lo i hi).2 (up i hi).1
    obtain ⟨a, b⟩ := hu i
    unfold stratify
    constructor
    · nlinarith [mul_nonneg (sub_nonneg.2 h1) a]
    · nlinarith [mul_nonneg (sub_nonneg.2 h1) (sub_nonneg.2 b)]
  refine ⟨(mid i hi).1, (mid i hi).2, le_trans (lo i hi).1 (mid i hi).1, le_trans (mid i hi).2 (up i hi).2, fun h => ?_⟩
  have e : upper z n i = lower z (i + 1) := by
    unfold upper lower
    rw [if_neg (by omega), if_neg (by omega)]
    simp
  exact le_trans (mid i hi).2 (e ▸ (mid (i + 1) h).1)

example : stratify (fun i => (i : ℚ)) (fun _ => 1 / 2) 3 1 = 1 ∧ stratify (fun i => (i : ℚ)) (fun _ => 1) 3 0 = 1 / 2 := by norm_num [stratify, lower, upper]

/-- **Cached depths are never random.** -/
theorem stratified_caching (a b t : Bool) : stratified a b t true = false ∧ stratified a b true false = a ∧ stratified a b false false = b := by
  cases a <;> cases b <;> cases t <;> decide

/-- **The fine pass keeps the coarse depths**, adds the samples and sorts. -/
theorem fineDepths_spec (z samples : List K) : (fineDepths true z samples).Perm (z ++ samples) ∧ (fineDepths true z samples).Pairwise (· ≤ ·) ∧ (fineDepths true z samples).length = z.length + samples.length ∧
    (fineDepths false z samples).Perm samples := by
  refine ⟨List.perm_insertionSort _ _, List.pairwise_insertionSort _ _, ?_, List.perm_insertionSort _ _⟩
  rw [← List.length_append]
  exact (List.perm_insertionSort _ _).length_eq

/-- **The weights of a ray**: with `eps = 0` they are what is absorbed, one minus what passes all points; with `eps` there is in addition `eps` times the light arriving at each point. -/
theorem weights_sum (eps t : K) (l : List K) : (weights eps t l).sum = t - t * (l.map (fun d => (1 + eps) - d)).prod + eps * ((List.range l.length).map (fun i => t * ((l.take i).map (fun d => (1 + eps) - d)).prod)).sum := by
  induction l generalizing t with
  | nil => simp [weights]
  | cons d l ih =>
    have e : ((List.range (d :: l).length).map (fun i => t * (((d :: l).take i).map (fun d => (1 + eps) - d)).prod)).sum =
        t + ((List.range l.length).map (fun i => t * ((1 + eps) - d) * ((l.take i).map (fun d => (1 + eps) - d)).prod)).sum := by
      rw [List.length_cons, List.range_succ_eq_map, List.map_cons, List.sum_cons, List.map_map]
      congr 1
      · simp
      · congr 1
        refine List.map_congr_left fun i _ => ?_
        simp [List.take_succ_cons, mul_assoc]
    rw [weights, List.sum_cons, ih, e, List.map_cons, List.prod_cons]
    ring

/-- **Weights are a distribution only if the ray is absorbed completely**: without `eps` and densities in [0, 1] they are not negative, add up to at most one, and to one exactly when some point has density one;
the documentation promises one always. -/
theorem weights_one (l : List K) (h : ∀ d ∈ l, 0 ≤ d ∧ d ≤ 1) : (∀ w ∈ weights 0 1 l, 0 ≤ w) ∧ (weights 0 1 l).sum ≤ 1 ∧ ((weights 0 1 l).sum = 1 ↔ 1 ∈ l) := by
  have hs : (weights 0 1 l).sum = 1 - (l.map (fun d => 1 - d)).prod := by
    rw [weights_sum]
    simp
  have hp : 0 ≤ (l.map (fun d => 1 - d)).prod := by
    refine List.prod_nonneg fun x hx => ?_
    obtain ⟨d, hd, rfl⟩ := List.mem_map.1 hx
    exact sub_nonneg.2 (h d hd).2
  refine ⟨?_, by rw [hs]; linarith, ?_⟩
  · have : ∀ (t : K) (l : List K), 0 ≤ t → (∀ d ∈ l, 0 ≤ d ∧ d ≤ 1) → ∀ w ∈ weights 0 t l, 0 ≤ w := by
      intro t l
      induction l generalizing t with
      | nil => intro _ _ w hw; simp [weights] at hw
      | cons d l ih =>
        intro ht hd w hw
        rw [weights, List.mem_cons] at hw
        rcases hw with rfl | hw
        · exact mul_nonneg (hd d (by simp)).1 ht
        · refine ih _ (mul_nonneg ht ?_) (fun x hx => hd x (by simp [hx])) w hw
          have := (hd d (by simp)).2
          linarith
    exact this 1 l zero_le_one h
  · rw [hs]
    constructor
    · intro e
      have : (l.map (fun d => 1 - d)).prod = 0 := by linarith
      rw [List.prod_eq_zero_iff] at this
      obtain ⟨d, hd, e⟩ := List.mem_map.1 this
      have : d = 1 := by linarith
      exact this ▸ hd
    · intro hm
      have : (l.map (fun d => 1 - d)).prod = 0 := by
        rw [List.prod_eq_zero_iff]
        exact List.mem_map.2 ⟨1, hm, sub_self 1⟩
      rw [this, sub_zero]

example : (weights (0 : ℚ) 1 [1 / 2, 1 / 2]).sum = 3 / 4 ∧ (weights (0 : ℚ) 1 [1 / 2, 1]).sum = 1 := by norm_num [weights]

/-! ### The dataset: theorems -/

theorem pieces_spec {α : Type} (s : Nat) (hs : 0 < s) (f : Nat) (l : List α) (hf : l.length ≤ f) : (pieces s f l).flatten = l ∧ (pieces s f l).length = (l.length + s - 1) / s ∧
    ∀ i, i < (pieces s f l).length → (pieces s f l)[i]? = some ((l.drop (i * s)).take s) := by
  induction f generalizing l with
  | zero =>
    have : l = [] := List.length_eq_zero_iff.1 (by omega)
    subst this
    refine ⟨rfl, ?_, fun i hi => absurd hi (Nat.not_lt_zero i)⟩
    rw [List.length_nil, Nat.div_eq_of_lt (by omega)]
    rfl
  | succ f ih =>
    unfold pieces
    by_cases hl : l = []
    · subst hl
      rw [if_pos rfl]
      refine ⟨rfl, ?_, fun i hi => absurd hi (Nat.not_lt_zero i)⟩
      have e : ([] : List α).length + s - 1 = s - 1 := by simp
      rw [e, Nat.div_eq_of_lt (by omega)]
      rfl
    · rw [if_neg hl]
      have hpos : 0 < l.length := List.length_pos_iff.2 hl
      obtain ⟨h1, h2, h3⟩ := ih (l.drop s) (by rw [List.length_drop]; omega)
      refine ⟨by rw [List.flatten_cons, h1, List.take_append_drop], ?_, ?_⟩
      · rw [List.length_cons, h2, List.length_drop]
        by_cases hle : s ≤ l.length
        · have : l.length + s - 1 = (l.length - s + s - 1) + s := by omega
          rw [this, Nat.add_div_right _ hs]
        · have e1 : l.length - s + s - 1 = s - 1 := by omega
          rw [e1, Nat.div_eq_of_lt (by omega)]
          symm
          rw [Nat.div_eq_iff hs]
          omega
      · intro i hi
        cases i with
        | zero => simp
        | succ i =>
          rw [List.getElem?_cons_succ, h3 i (by simpa using hi), List.drop_drop]
          congr 3
          rw [Nat.succ_mul]
          omega

/-- **When the height is a multiple of the number of cameras, image and camera `i` belong together**: image `i` has the rows from `i * h` on. -/
theorem splitImages_ok {α : Type} (n h : Nat) (hn : 0 < n) (hh : 0 < h) (rows : List α) (hl : rows.length = n * h) :
    ∃ p, splitImages n rows = .ok p ∧ p.length = n ∧ p.flatten = rows ∧ ∀ i, i < n → p[i]? = some ((rows.drop (i * h)).take h) := by
  have hs : (rows.length + n - 1) / n = h := by
    rw [hl, Nat.div_eq_iff hn]
    have : n * h = h * n := Nat.mul_comm _ _
    omega
  obtain ⟨h1, h2, h3⟩ := pieces_spec h hh rows.length rows (le_refl _)
  have hlen : (pieces h rows.length rows).length = n := by
    rw [h2, hl, Nat.div_eq_iff hh]
    omega
  refine ⟨pieces h rows.length rows, ?_, hlen, h1, fun i hi => h3 i (by omega)⟩
  simp only [splitImages, hs]
  rw [if_pos]
  rw [List.all_eq_true]
  intro x hx
  obtain ⟨i, hi, rfl⟩ := List.getElem_of_mem hx
  have := h3 i hi
  rw [List.getElem?_eq_getElem hi] at this
  rw [Option.some.inj this, beq_iff_eq, List.length_take, List.length_drop, hl]
  have hi' : i < n := by omega
  have : i * h + h ≤ n * h := by
    have := Nat.mul_le_mul_right h (Nat.succ_le_of_lt hi')
    rwa [Nat.succ_mul] at this
  omega

/-- **Otherwise there is an error or there are too few images**: a height which is no multiple never gives one image for every camera. -/
theorem splitImages_few {α : Type} (n : Nat) (rows : List α) (hd : ¬ n ∣ rows.length) (hn : 0 < n) (p : List (List α)) (h : splitImages n rows = .ok p) : p.length < n := by
  have hpos : 0 < rows.length := by
    rcases Nat.eq_zero_or_pos rows.length with h0 | h0
    · exact absurd (h0 ▸ dvd_zero n) hd
    · exact h0
  have hs : 0 < (rows.length + n - 1) / n := Nat.div_pos (by omega) hn
  obtain ⟨h1, h2, h3⟩ := pieces_spec _ hs rows.length rows (le_refl _)
  unfold splitImages at h
  simp only at h
  split at h
  · rename_i hall
    cases h
    have hsum : (pieces ((rows.length + n - 1) / n) rows.length rows).length * ((rows.length + n - 1) / n) = rows.length := by
      have : ∀ (p : List (List α)) (s : Nat), (∀ x ∈ p, x.length = s) → p.flatten.length = p.length * s := by
        intro p s
        induction p with
        | nil => simp
        | cons a p ih =>
          intro hx
          rw [List.flatten_cons, List.length_append, ih (fun x hx' => hx x (by simp [hx'])), hx a (by simp), List.length_cons, Nat.succ_mul]
          omega
      have e := this _ ((rows.length + n - 1) / n) (by simpa using hall)
      rw [h1] at e
      exact e.symm
    by_contra hc
    push Not at hc
    have hmul : n * ((rows.length + n - 1) / n) ≤ rows.length := le_trans (Nat.mul_le_mul_right _ hc) (le_of_eq hsum)
    have hge : rows.length ≤ n * ((rows.length + n - 1) / n) := by
      have := Nat.lt_div_mul_add (a := rows.length + n - 1) hn
      rw [Nat.mul_comm] at this
      omega
    exact hd ⟨_, le_antisymm hge hmul⟩
  · cases h

example : splitImages 2 [1, 2, 3, 4] = .ok [[1, 2], [3, 4]] ∧ splitImages 4 [1, 2, 3, 4, 5, 6] = .ok [[1, 2], [3, 4], [5, 6]] ∧ splitImages 3 [1, 2, 3, 4, 5] = .error .stack := by decide

/-- **Entries of a dataset**: each index of the split gives the image and the camera of this index, which it also carries; an index without image or camera raises. -/
theorem dataset_spec {α C : Type} (images : List (List α)) (cams : List C) (split : List Nat) (hi : ∀ i ∈ split, i < images.length ∧ i < cams.length) :
    ∃ d, dataset images cams split = .ok d ∧ d.length = split.length ∧ ∀ j (hj : j < split.length), ∃ x, d[j]? = some x ∧ x.idx = split[j] ∧ images[split[j]]? = some x.image ∧ cams[split[j]]? = some x.camera := by
  induction split with
  | nil => exact ⟨[], rfl, rfl, by simp⟩
  | cons a l ih =>
    obtain ⟨d, hd, hl, hx⟩ := ih (fun i h => hi i (by simp [h]))
    obtain ⟨h1, h2⟩ := hi a (by simp)
    refine ⟨⟨images[a], cams[a], a⟩ :: d, ?_, by simp [hl], ?_⟩
    · unfold dataset at hd ⊢
      rw [List.mapM_cons, hd, List.getElem?_eq_getElem h1, List.getElem?_eq_getElem h2]
      rfl
    · intro j hj
      cases j with
      | zero => exact ⟨_, rfl, rfl, List.getElem?_eq_getElem h1, List.getElem?_eq_getElem h2⟩
      | succ j => exact hx j (by simpa using hj)

/-- **The size of the images is the requested one, up to a gap**: when both factors agree, images have the requested size; factors which differ a little but average to one leave the images as they are. -/
theorem rescale_spec (h w h' w' : K) (hh : 0 < h) (hw : 0 < w) : (h' / h = w' / w → rescale h w h' w' = .ok (h', w')) ∧
    (∀ r, rescale h w h' w' = .ok r → r ≠ (h', w') → r = (h, w) ∧ (h' / h + w' / w) / 2 = 1 ∧ |h' / h - w' / w| ≤ 1 / 1000) := by
  constructor
  · intro e
    unfold rescale
    simp only [e, sub_self, abs_zero]
    rw [if_neg (by norm_num)]
    split
    · rename_i h1
      have h2 : w' / w = 1 := by linarith
      rw [h2] at e
      rw [div_eq_one_iff_eq hw.ne'] at h2
      rw [div_eq_one_iff_eq hh.ne'] at e
      rw [e, h2]
    · rfl
  · intro r hr hne
    unfold rescale at hr
    simp only at hr
    split at hr
    · cases hr
    · rename_i h1
      split at hr
      · rename_i h2
        cases hr
        exact ⟨rfl, h2, not_lt.1 h1⟩
      · cases hr
        exact absurd rfl hne

/-- Such factors exist. -/
theorem rescale_gap : rescale (2000 : ℚ) 2000 2001 1999 = .ok (2000, 2000) := by
  norm_num [rescale]

/-! ### The circular trajectory: theorems -/

/-- **A circle in the plane**: with orthonormal vectors all points have the same distance to the mean and lie in the plane orthogonal to the third vector. -/
theorem circle_spec (r : ℝ) (e0 e1 e2 m : V3 ℝ) (h11 : V3.dot e1 e1 = 1) (h22 : V3.dot e2 e2 = 1) (h12 : V3.dot e1 e2 = 0) (h01 : V3.dot e0 e1 = 0) (h02 : V3.dot e0 e2 = 0) (a : ℝ) :
    V3.dot (circle r e1 e2 m a - m) (circle r e1 e2 m a - m) = r ^ 2 ∧ V3.dot e0 (circle r e1 e2 m a - m) = 0 ∧ circle r e1 e2 m (a + 2 * Real.pi) = circle r e1 e2 m a := by
  refine ⟨?_, ?_, ?_⟩
  · simp only [V3.dot, circle, V3.sub_x, V3.sub_y, V3.sub_z, V3.add_x, V3.add_y, V3.add_z, V3.smul_x, V3.smul_y, V3.smul_z] at *
    have := Real.sin_sq_add_cos_sq a
    linear_combination (r * Real.cos a) ^ 2 * h11 + (r * Real.sin a) ^ 2 * h22 + 2 * (r * Real.cos a) * (r * Real.sin a) * h12 + r ^ 2 * this
  · simp only [V3.dot, circle, V3.sub_x, V3.sub_y, V3.sub_z, V3.add_x, V3.add_y, V3.add_z, V3.smul_x, V3.smul_y, V3.smul_z] at *
    linear_combination (r * Real.cos a) * h01 + (r * Real.sin a) * h02
  · simp only [circle, Real.cos_add_two_pi, Real.sin_add_two_pi]

/-- **The first camera is repeated at the end**: the angles include both 0 and 2π. -/
theorem circle_closed (r : ℝ) (e1 e2 m : V3 ℝ) (n : Nat) (hn : 2 ≤ n) : circle r e1 e2 m (angle n 0) = circle r e1 e2 m (angle n (n - 1)) := by
  have h0 : angle n 0 = 0 := by
    unfold angle
    split <;> simp
  have h1 : angle n (n - 1) = 0 + 2 * Real.pi := by
    unfold angle
    rw [if_neg (by omega), Nat.cast_sub (by omega), Nat.cast_one]
    have : ((n : ℝ) - 1) ≠ 0 := by
      have : (2 : ℝ) ≤ n := by exact_mod_cast hn
      intro h
      linarith
    field_simp
    ring
  rw [h0, h1]
  simp only [circle, Real.cos_add_two_pi, Real.sin_add_two_pi]

end P3D.NerfProject
