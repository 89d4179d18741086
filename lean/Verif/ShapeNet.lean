/-
ShapeNetCore and R2N2: `datasets/shapenet_base.py`, the loops of `shapenet/shapenet_core.py:126-145` and `r2n2/r2n2.py:136-190` that list models,
selection of views and pairing of meshes with cameras (`r2n2.py:205-310, 341-430`), `collate_batched_meshes` (`datasets/utils.py:15-50`), and the calibration:
`compute_extrinsic_matrix`, `voxelize`, `project_verts`, `BlenderCamera` of `r2n2/utils.py`.

A model is the name of its directory.  `torch.multinomial` is any function whose results are in range, of the length asked for, and distinct without
replacement.  Not modelled: files, JSON, rendering itself (modelled elsewhere), 32 bit floats.
-/
import Mathlib.Analysis.SpecialFunctions.Trigonometric.Basic
import Mathlib.Data.List.Count
import Mathlib.Tactic.Linarith
import Mathlib.Tactic.LinearCombination
import Mathlib.Tactic.FieldSimp
import Mathlib.Tactic.Ring
import Verif.Mat3
import Verif.UvSample

set_option linter.unusedSectionVars false

namespace P3D.ShapeNet

open V3

inductive Err | value | index | key | runtime
deriving DecidableEq, Repr

/-! ### The code: lists of models -/

variable {S : Type} [DecidableEq S]

/-- The lists of a dataset. -/
structure Ds (S : Type) where
  synsets : List S
  models : List S
  starts : List (S × Nat)
  nums : List (S × Nat)

/-- One category (shapenet_core.py:127-145, r2n2.py:150-180). -/
def addCat (d : Ds S) (c : S × List S) : Ds S :=
  let synsets := d.synsets ++ List.replicate c.2.length c.1
  ⟨synsets, d.models ++ c.2, d.starts ++ [(c.1, d.synsets.length)], d.nums ++ [(c.1, synsets.length - d.synsets.length)]⟩

/-- The loop over categories (keys of a dictionary or members of a set, so distinct). -/
def build (cats : List (S × List S)) : Ds S := cats.foldl addCat ⟨[], [], [], []⟩

/-- `torch.multinomial(torch.ones(n), k, replacement)`. -/
structure Draw where
  f : Nat → Nat → Bool → List Nat
  len : ∀ n k r, (f n k r).length = k
  lt : ∀ n k r, ∀ i ∈ f n k r, i < n ∨ n = 0
  nodup : ∀ n k, k ≤ n → (f n k false).Nodup

/-- `_sample_idxs_from_category` (shapenet_base.py:245-285); no entry or no sample is an error of `multinomial`. -/
def sampleFrom (dr : Draw) (d : Ds S) (k : Nat) (cat : Option S) : Except Err (List Nat) :=
  let go (start n : Nat) : Except Err (List Nat) :=
    if n = 0 ∨ k = 0 then .error .runtime else .ok ((dr.f n k (decide (n < k))).map (· + start))
  match cat with
  | none => go 0 d.models.length
  | some c =>
    match d.starts.lookup c, d.nums.lookup c with
    | some s, some n => go s n
    | _, _ => .error .key

/-- The loop over categories of `_handle_render_inputs` (lines 207-223): `inv` maps labels to offsets; the draws of different categories are independent. -/
def sampleCats (drs : Nat → Draw) (d : Ds S) (inv : List (S × S)) (nums : List Nat) : Nat → List S → Except Err (List Nat)
  | _, [] => .ok []
  | i, c :: cs =>
    let cat := (inv.lookup c).getD c
    if cat ∉ inv.map Prod.snd then .error .value
    else
      match sampleFrom (drs i) d ((if 1 < nums.length then nums[i]? else nums.head?).getD 0) (some cat) with
      | .error e => .error e
      | .ok l =>
        match sampleCats drs d inv nums (i + 1) cs with
        | .error e => .error e
        | .ok r => .ok (l ++ r)

/-- `_handle_render_inputs` (shapenet_base.py:170-243). -/
def handle (drs : Nat → Draw) (d : Ds S) (inv : List (S × S)) (modelIds cats : List S) (nums : Option (List Nat)) (idxs : List Int) : Except Err (List Int) :=
  if modelIds ≠ [] then
    if modelIds.any (fun m => decide (m ∉ d.models)) then .error .value else .ok (modelIds.map fun m => (d.models.idxOf m : Int))
  else if cats ≠ [] then
    let ns := nums.getD [1]
    if cats.length ≠ ns.length ∧ ns.length ≠ 1 then .error .value
    else (sampleCats drs d inv ns 0 cats).map fun l => l.map fun (i : Nat) => (i : Int)
  else if idxs ≠ [] then
    if idxs.any (fun i => decide (i < 0 ∨ (d.models.length : Int) ≤ i)) then .error .index else .ok idxs
  else
    match nums.getD [1] with
    | [] => .error .index
    | n :: _ => (sampleFrom (drs 0) d n none).map fun l => l.map fun (i : Nat) => (i : Int)

/-- The views of a model (r2n2.py:226-256). -/
def views (loaded : List Nat) (asked : Option (List Nat)) : List Nat :=
  match asked with
  | none => loaded
  | some v => if v.any (fun i => decide (i ∉ loaded)) then loaded else v

/-- What `__getitem__` (r2n2.py:258-341) puts in the model: whether it has cameras; voxels of every view are stacked, which fails without views. -/
def item (images voxels : Bool) (vs : List Nat) : Except Err Bool :=
  if images = true ∧ vs = [] then .error .runtime
  else if voxels = true ∧ (images = false ∨ vs = []) then .error .runtime
  else .ok images

/-- Meshes and cameras of a rendering (r2n2.py:412-425, shapenet_base.py:147-154): for each picture the number of the mesh and that of the model the camera
belongs to; `n` views of each model.  One camera is used for all meshes. -/
def pictures (n : List Nat) : Except Err (List (Nat × Nat)) :=
  let cams := (List.range n.length).flatMap fun i => List.replicate (n.getD i 0) i
  if cams.length ≠ 1 ∧ cams.length % n.length ≠ 0 then .error .value
  else
    let meshes := if 1 < cams.length then (List.range n.length).flatMap fun i => List.replicate (cams.length / n.length) i else List.range n.length
    .ok (meshes.zip (if cams.length = 1 then List.replicate n.length (cams.headD 0) else cams))

/-- `collate_batched_meshes` (datasets/utils.py:33-48): textures of the members, `none` if not loaded (the key is there); `TexturesAtlas` wants tensors. -/
def collateTextures (tex : List (Option Nat)) : Except Err (List Nat) :=
  match tex.mapM id with
  | none => .error .value
  | some l => if l.all (fun r => decide (r = l.headD 0)) then .ok l else .error .value

/-! ### The code: calibration -/

/-- `compute_extrinsic_matrix` (utils.py:111-155): rotation and translation. -/
noncomputable def extrinsic (azimuth elevation distance : ℝ) : M3 ℝ × V3 ℝ :=
  let az := -Real.pi * azimuth / 180
  let el := -Real.pi * elevation / 180
  let sa := Real.sin az
  let ca := Real.cos az
  let se := Real.sin el
  let ce := Real.cos el
  let w2o : M3 ℝ := ⟨ca * ce, sa * ce, -se, -sa, ca, 0, ca * se, sa * se, ce⟩
  let o2c : M3 ℝ := ⟨0, 1, 0, 0, 0, 1, 1, 0, 0⟩
  let rot : M3 ℝ := ⟨1, 0, 0, 0, 0, -1, 0, 1, 0⟩
  (o2c * w2o * rot, -(o2c.mulVec ⟨distance, 0, 0⟩))

/-- `_compute_camera_calibration` (r2n2.py:343-372): the upper part and the last row of `RTᵀ S`. -/
def calibration (rt : M3 ℝ × V3 ℝ) : M3 ℝ × V3 ℝ :=
  let s : M3 ℝ := ⟨-1, 0, 0, 0, 1, 0, 0, 0, -1⟩
  (rt.1.transpose * s, M3.vecMul rt.2 s)

/-- `p` in view coordinates of a camera with `R`, `T`. -/
def view (c : M3 ℝ × V3 ℝ) (p : V3 ℝ) : V3 ℝ := M3.vecMul p c.1 + c.2

/-- The projection of `BlenderCamera` with the intrinsics of r2n2.py:298-305, of a point in view coordinates. -/
noncomputable def project (v : V3 ℝ) : V3 ℝ :=
  ⟨2.1875 * v.x / v.z, 2.1875 * v.y / v.z, (-1.002002 * v.z - 0.2002002) / v.z⟩

/-- `project_verts` (utils.py:400-446) with `P = BLENDER_INTRINSIC RT`. -/
noncomputable def projectVerts (rt : M3 ℝ × V3 ℝ) (p : V3 ℝ) : V3 ℝ :=
  let c := rt.1.mulVec p + rt.2
  let w := -c.z
  let w' := (if w < 0 then -1 else 1) * max |w| (1 / 10)
  ⟨2.1875 * c.x / w', 2.1875 * c.y / w', (-1.002002 * c.z - 0.2002002) / w'⟩

/-- Coordinates of `voxelize` in [-1, 1] (utils.py:371-386). -/
noncomputable def voxelPos (rt : M3 ℝ × V3 ℝ) (p : V3 ℝ) : V3 ℝ :=
  let q := projectVerts rt p
  let zmin : ℝ := 0.67
  let zmax : ℝ := 0.92
  ⟨-q.x, q.y, q.z * (2 / (zmax - zmin)) + (-2 * zmin / (zmax - zmin) - 1)⟩

/-- Lines 389-390. -/
noncomputable def voxelIdx (n : Nat) (x : ℝ) : Int := Uv.roundEven (1 / 2 * ((n : ℝ) - 1) * (x + 1))

/-- `voxelize` (lines 389-397): the entries set to one, as (z, y, x). -/
noncomputable def voxelize (n : Nat) (rt : M3 ℝ × V3 ℝ) (pts : List (V3 ℝ)) : List (Int × Int × Int) :=
  (pts.map fun p => let q := voxelPos rt p; (voxelIdx n q.z, voxelIdx n q.y, voxelIdx n q.x)).filter fun i =>
    decide (0 ≤ i.1 ∧ i.1 < n) && decide (0 ≤ i.2.1 ∧ i.2.1 < n) && decide (0 ≤ i.2.2 ∧ i.2.2 < n)

/-! ### Lists of models -/

theorem build_snoc (cats : List (S × List S)) (c : S × List S) : build (cats ++ [c]) = addCat (build cats) c := by
  simp [build, List.foldl_append]

theorem build_models (cats : List (S × List S)) : (build cats).models = cats.flatMap Prod.snd ∧
    (build cats).synsets = cats.flatMap (fun c => List.replicate c.2.length c.1) ∧ (build cats).starts.map Prod.fst = cats.map Prod.fst ∧
    (build cats).nums = cats.map (fun c => (c.1, c.2.length)) := by
  induction cats using List.reverseRecOn with
  | nil => simp [build]
  | append_singleton cats c ih =>
    obtain ⟨h1, h2, h3, h4⟩ := ih
    rw [build_snoc]
    refine ⟨by simp [addCat, h1], by simp [addCat, h2], by simp [addCat, h3], ?_⟩
    simp [addCat, h4]

theorem lens (cats : List (S × List S)) : (build cats).models.length = (build cats).synsets.length := by
  obtain ⟨h1, h2, -, -⟩ := build_models cats
  rw [h1, h2]
  simp [List.length_flatMap]

/-- The models of a category are those from its start, as many as its number, and no others: label and model of the same index belong together. -/
theorem category_slice (cats : List (S × List S)) (hd : (cats.map Prod.fst).Nodup) (c : S × List S) (hc : c ∈ cats) :
    ∃ s, (build cats).starts.lookup c.1 = some s ∧ (build cats).nums.lookup c.1 = some c.2.length ∧
      (∀ i : Nat, (build cats).synsets[i]? = some c.1 ↔ s ≤ i ∧ i < s + c.2.length) ∧ ∀ j : Nat, j < c.2.length → (build cats).models[s + j]? = c.2[j]? := by
  induction cats using List.reverseRecOn with
  | nil => simp at hc
  | append_singleton cats b ih =>
    have hnd : (cats.map Prod.fst).Nodup ∧ b.1 ∉ cats.map Prod.fst := by
      rw [List.map_append, List.nodup_append] at hd
      refine ⟨hd.1, fun hb => ?_⟩
      exact hd.2.2 b.1 hb b.1 (by simp) rfl
    obtain ⟨m1, m2, m3, m4⟩ := build_models cats
    have hl := lens cats
    have keyNone : ∀ (l : List (S × Nat)), b.1 ∉ l.map Prod.fst → l.lookup b.1 = none := by
      intro l hl
      rw [List.lookup_eq_none_iff]
      intro p hp
      rw [bne_iff_ne]
      intro h
      exact hl (List.mem_map.mpr ⟨p, hp, h.symm⟩)
    have noOld : ∀ i : Nat, (build cats).synsets[i]? ≠ some b.1 := by
      intro i hi
      have := List.mem_of_getElem? hi
      rw [m2] at this
      obtain ⟨x, hx, hbx⟩ := List.mem_flatMap.mp this
      have := List.eq_of_mem_replicate hbx
      exact hnd.2 (List.mem_map.mpr ⟨x, hx, this.symm⟩)
    rw [build_snoc]
    simp only [addCat]
    by_cases hcb : c = b
    · subst hcb
      refine ⟨(build cats).synsets.length, ?_, ?_, ?_, ?_⟩
      · rw [List.lookup_append, keyNone _ (by rw [m3]; exact hnd.2)]
        simp
      · rw [List.lookup_append, keyNone _ (by rw [m4]; simpa using hnd.2)]
        simp
      · intro i
        by_cases hi : i < (build cats).synsets.length
        · rw [List.getElem?_append_left hi]
          constructor
          · intro h
            exact absurd h (noOld i)
          · intro h
            omega
        · rw [List.getElem?_append_right (by omega), List.getElem?_replicate]
          by_cases h2 : i - (build cats).synsets.length < c.2.length
          · rw [if_pos h2]
            simp
            omega
          · rw [if_neg h2]
            simp
            omega
      · intro j hj
        rw [← hl, List.getElem?_append_right (by omega)]
        congr 1
        omega
    · have hcc : c ∈ cats := by
        rcases List.mem_append.mp hc with h | h
        · exact h
        · exact absurd (by simpa using h) hcb
      have hne : c.1 ≠ b.1 := fun h => hnd.2 (List.mem_map.mpr ⟨c, hcc, h⟩)
      obtain ⟨s, a1, a2, a3, a4⟩ := ih hnd.1 hcc
      have hbound : ∀ j : Nat, j < c.2.length → s + j < (build cats).synsets.length := by
        intro j hj
        have := (a3 (s + j)).mpr ⟨by omega, by omega⟩
        by_contra hcon
        rw [List.getElem?_eq_none (by omega)] at this
        simp at this
      refine ⟨s, by rw [List.lookup_append, a1]; rfl, by rw [List.lookup_append, a2]; rfl, ?_, ?_⟩
      · intro i
        rw [← a3 i]
        by_cases hi : i < (build cats).synsets.length
        · rw [List.getElem?_append_left hi]
        · rw [List.getElem?_append_right (by omega), List.getElem?_replicate, List.getElem?_eq_none (show (build cats).synsets.length ≤ i by omega)]
          split
          · simp [Ne.symm hne]
          · simp
      · intro j hj
        rw [List.getElem?_append_left (by rw [hl]; exact hbound j hj)]
        exact a4 j hj

/-- Samples of a category: as many as asked for, all of that category, distinct if there are enough models. -/
theorem sample_category (dr : Draw) (cats : List (S × List S)) (hd : (cats.map Prod.fst).Nodup) (c : S × List S) (hc : c ∈ cats) (k : Nat) (hk : 0 < k)
    (hn : c.2 ≠ []) : ∃ l, sampleFrom dr (build cats) k (some c.1) = .ok l ∧ l.length = k ∧ (∀ i ∈ l, (build cats).synsets[i]? = some c.1) ∧
      (k ≤ c.2.length → l.Nodup) := by
  obtain ⟨s, a1, a2, a3, -⟩ := category_slice cats hd c hc
  have hlen : 0 < c.2.length := List.length_pos_iff.mpr hn
  refine ⟨(dr.f c.2.length k (decide (c.2.length < k))).map (· + s), ?_, ?_, ?_, ?_⟩
  · simp only [sampleFrom, a1, a2]
    rw [if_neg (by omega)]
  · simp [dr.len]
  · intro i hi
    obtain ⟨j, hj, rfl⟩ := List.mem_map.mp hi
    rw [a3]
    have := dr.lt _ _ _ j hj
    omega
  · intro hle
    rw [show decide (c.2.length < k) = false by simp; omega]
    exact (dr.nodup _ _ hle).map fun a b h => by simpa using h

theorem sample_all (dr : Draw) (d : Ds S) (k : Nat) (hk : 0 < k) (hn : d.models ≠ []) : ∃ l, sampleFrom dr d k none = .ok l ∧ l.length = k ∧
    (∀ i ∈ l, i < d.models.length) ∧ (k ≤ d.models.length → l.Nodup) := by
  have hlen : 0 < d.models.length := List.length_pos_iff.mpr hn
  refine ⟨(dr.f d.models.length k (decide (d.models.length < k))).map (· + 0), ?_, ?_, ?_, ?_⟩
  · simp only [sampleFrom]
    rw [if_neg (by omega)]
  · simp [dr.len]
  · intro i hi
    obtain ⟨j, hj, rfl⟩ := List.mem_map.mp hi
    have := dr.lt _ _ _ j hj
    omega
  · intro hle
    rw [show decide (d.models.length < k) = false by simp; omega]
    exact (dr.nodup _ _ hle).map fun a b h => by simpa using h

/-- Selection by model: the models asked for in their order (of equal names the first), or ValueError. -/
theorem handle_models (drs : Nat → Draw) (d : Ds S) (inv : List (S × S)) (ms cats : List S) (nums : Option (List Nat)) (idxs : List Int) (hm : ms ≠ []) :
    (∃ l, handle drs d inv ms cats nums idxs = .ok l ∧ l.map (fun i => d.models[i.toNat]?) = ms.map some) ∨
      (handle drs d inv ms cats nums idxs = .error .value ∧ ∃ m ∈ ms, m ∉ d.models) := by
  unfold handle
  rw [if_pos hm]
  by_cases h : ms.any (fun m => decide (m ∉ d.models)) = true
  · rw [if_pos h]
    right
    refine ⟨rfl, ?_⟩
    simpa using h
  · rw [if_neg h]
    left
    refine ⟨_, rfl, ?_⟩
    rw [List.map_map]
    apply List.map_congr_left
    intro m hmm
    have hmem : m ∈ d.models := by
      by_contra hcon
      exact h (by simpa using ⟨m, hmm, hcon⟩)
    simp only [Function.comp_apply, Int.toNat_natCast]
    rw [List.getElem?_eq_getElem (List.idxOf_lt_length_of_mem hmem)]
    simp

/-- Selection by index: unchanged, or IndexError. -/
theorem handle_idxs (drs : Nat → Draw) (d : Ds S) (inv : List (S × S)) (nums : Option (List Nat)) (idxs : List Int) (hi : idxs ≠ []) :
    handle drs d inv [] [] nums idxs = if ∀ i ∈ idxs, 0 ≤ i ∧ i < d.models.length then .ok idxs else .error .index := by
  unfold handle
  rw [if_neg (by simp), if_neg (by simp), if_pos hi]
  by_cases h : idxs.any (fun i => decide (i < 0 ∨ (d.models.length : Int) ≤ i)) = true
  · rw [if_pos h, if_neg]
    intro hall
    simp only [List.any_eq_true, decide_eq_true_eq] at h
    obtain ⟨i, hi1, hi2⟩ := h
    have := hall i hi1
    omega
  · rw [if_neg h, if_pos]
    intro i hi1
    simp only [List.any_eq_true, decide_eq_true_eq, not_exists, not_and] at h
    have := h i hi1
    omega

/-- Selection by categories: for each of them, in order, as many models of it as asked for. -/
theorem sampleCats_spec (drs : Nat → Draw) (cats : List (S × List S)) (hd : (cats.map Prod.fst).Nodup) (inv : List (S × S)) (nums : List Nat) (i : Nat) (cs : List S)
    (hcs : ∀ c ∈ cs, (inv.lookup c).getD c ∈ inv.map Prod.snd ∧ ∃ ms, ((inv.lookup c).getD c, ms) ∈ cats ∧ ms ≠ [])
    (hn : ∀ j : Nat, j < cs.length → 0 < (if 1 < nums.length then nums[i + j]? else nums.head?).getD 0) :
    ∃ ls : List (List Nat), sampleCats drs (build cats) inv nums i cs = .ok ls.flatten ∧ ls.length = cs.length ∧
      ∀ (j : Nat) (c : S) (l : List Nat), cs[j]? = some c → ls[j]? = some l → l.length = (if 1 < nums.length then nums[i + j]? else nums.head?).getD 0 ∧
        ∀ x ∈ l, (build cats).synsets[x]? = some ((inv.lookup c).getD c) := by
  induction cs generalizing i with
  | nil => exact ⟨[], rfl, rfl, by simp⟩
  | cons c cs ih =>
    obtain ⟨h1, ms, h2, h3⟩ := hcs c List.mem_cons_self
    have hn0 := hn 0 (by simp)
    obtain ⟨l, a1, a2, a3, -⟩ := sample_category (drs i) cats hd _ h2 _ hn0 h3
    obtain ⟨ls, b1, b2, b3⟩ := ih (i + 1) (fun c' hc' => hcs c' (List.mem_cons_of_mem _ hc')) (fun j hj => by
      have := hn (j + 1) (by simp; omega)
      rwa [show i + (j + 1) = i + 1 + j by omega] at this)
    refine ⟨l :: ls, ?_, by simp [b2], ?_⟩
    · rw [sampleCats]
      rw [if_neg (not_not.mpr h1)]
      rw [Nat.add_zero] at a1
      rw [a1]
      dsimp only
      rw [b1]
      rfl
    · intro j c' l' hc' hl'
      cases j with
      | zero =>
        simp only [List.getElem?_cons_zero, Option.some.injEq] at hc' hl'
        subst hc' hl'
        exact ⟨a2, a3⟩
      | succ j =>
        simp only [List.getElem?_cons_succ] at hc' hl'
        have := b3 j c' l' hc' hl'
        rwa [show i + 1 + j = i + (j + 1) by omega] at this

/-- Views asked for are used if all of them are loaded, otherwise all loaded ones. -/
theorem views_spec (loaded v : List Nat) : views loaded (some v) = if ∀ i ∈ v, i ∈ loaded then v else loaded := by
  unfold views
  by_cases h : ∀ i ∈ v, i ∈ loaded
  · rw [if_pos h]
    dsimp only
    rw [if_neg]
    simpa using h
  · rw [if_neg h]
    dsimp only
    rw [if_pos]
    simpa using h

/-- Voxels without renderings are an error whatever the files. -/
theorem voxels_need_images (vs : List Nat) : item false true vs = .error .runtime ∧ (vs ≠ [] → item true true vs = .ok true ∧ item true false vs = .ok true) := by
  refine ⟨by simp [item], fun h => ⟨by simp [item, h], by simp [item, h]⟩⟩

theorem cams_length (n : List Nat) : ((List.range n.length).flatMap fun i => List.replicate (n.getD i 0) i).length = n.sum := by
  rw [List.length_flatMap]
  simp only [List.length_replicate]
  congr 1
  apply List.ext_getElem (by simp)
  intro i h1 h2
  simp at h1 ⊢
  simp [h1]

theorem count_owner (f : Nat → Nat) (m i : Nat) (hi : i < m) : ((List.range m).flatMap fun j => List.replicate (f j) j).count i = f i := by
  induction m with
  | zero => omega
  | succ m ih =>
    rw [List.range_succ, List.flatMap_append, List.count_append]
    by_cases him : i = m
    · subst him
      have h0 : ((List.range i).flatMap fun j => List.replicate (f j) j).count i = 0 := by
        rw [List.count_eq_zero]
        intro hmem
        obtain ⟨j, hj, hij⟩ := List.mem_flatMap.mp hmem
        have := List.eq_of_mem_replicate hij
        have := List.mem_range.mp hj
        omega
      rw [h0]
      simp
    · rw [ih (by omega)]
      have : (List.replicate (f m) m).count i = 0 := by
        rw [List.count_eq_zero]
        intro hmem
        exact him (List.eq_of_mem_replicate hmem)
      simpa using this

theorem zip_eq_iff {l m : List Nat} (h : l.length = m.length) : (∀ p ∈ l.zip m, p.1 = p.2) ↔ l = m := by
  constructor
  · intro hall
    apply List.ext_getElem h
    intro i h1 h2
    have hi : i < (l.zip m).length := by simp; omega
    have := hall ((l.zip m)[i]) (List.getElem_mem hi)
    simpa using this
  · rintro rfl p hp
    obtain ⟨i, hi, rfl⟩ := List.getElem_of_mem hp
    simp

/-- With more than one camera in total, every mesh is rendered with cameras of its own model if and only if all models have the same number of views. -/
theorem pictures_right (n : List Nat) (h1 : 1 < n.sum) (hd : n.sum % n.length = 0) : ∃ ps, pictures n = .ok ps ∧ ps.length = n.sum ∧
    ((∀ p ∈ ps, p.1 = p.2) ↔ ∃ k, ∀ x ∈ n, x = k) := by
  have hn : n ≠ [] := by
    rintro rfl
    simp at h1
  have hlen : 0 < n.length := List.length_pos_iff.mpr hn
  have hc := cams_length n
  have hm : ((List.range n.length).flatMap fun i => List.replicate (n.sum / n.length) i).length = n.sum := by
    rw [List.length_flatMap]
    simp only [List.length_replicate, List.map_const', List.length_range, List.sum_replicate, smul_eq_mul]
    exact Nat.mul_div_cancel' (Nat.dvd_of_mod_eq_zero hd)
  refine ⟨((List.range n.length).flatMap fun i => List.replicate (n.sum / n.length) i).zip ((List.range n.length).flatMap fun i => List.replicate (n.getD i 0) i), ?_, ?_, ?_⟩
  · simp only [pictures]
    rw [hc, if_neg (by simp [hd]), if_pos h1, if_neg (by omega)]
  · rw [List.length_zip, hm, hc, min_self]
  · rw [zip_eq_iff (by rw [hm, hc])]
    constructor
    · intro heq
      refine ⟨n.sum / n.length, ?_⟩
      intro x hx
      obtain ⟨i, hi, rfl⟩ := List.getElem_of_mem hx
      have e1 := count_owner (fun _ => n.sum / n.length) n.length i hi
      have e2 := count_owner (fun j => n.getD j 0) n.length i hi
      rw [← heq, e1] at e2
      rw [e2]
      simp [hi]
    · rintro ⟨k, hk⟩
      have hrep : n = List.replicate n.length k := List.eq_replicate_iff.mpr ⟨rfl, hk⟩
      have hs : n.sum = n.length * k := by
        rw [hrep]
        simp
      have hdiv : n.sum / n.length = k := by rw [hs, Nat.mul_div_cancel_left _ hlen]
      rw [hdiv]
      apply List.flatMap_congr
      intro i hi
      have hi' := List.mem_range.mp hi
      rw [List.getD_eq_getElem?_getD, List.getElem?_eq_getElem hi']
      simp only [Option.getD_some]
      rw [hk _ (List.getElem_mem hi')]

/-- Without textures a batch cannot be collated. -/
theorem collate_without (tex : List (Option Nat)) (h : none ∈ tex) : collateTextures tex = .error .value := by
  have : tex.mapM id = none := by
    induction tex with
    | nil => simp at h
    | cons a l ih =>
      rw [List.mapM_cons]
      cases a with
      | none => rfl
      | some x =>
        have : l.mapM id = none := ih (by simpa using h)
        simp [this]
  unfold collateTextures
  rw [this]

/-! ### Calibration -/

/-- The place of the camera: azimuth around the y axis, elevation above the xz plane. -/
noncomputable def eye (azimuth elevation distance : ℝ) : V3 ℝ :=
  let a := Real.pi * azimuth / 180
  let e := Real.pi * elevation / 180
  ⟨distance * (Real.cos e * Real.cos a), distance * Real.sin e, distance * (Real.cos e * Real.sin a)⟩

theorem neg_angle (x : ℝ) : -Real.pi * x / 180 = -(Real.pi * x / 180) := by ring

/-- The entries of the extrinsic matrix. -/
theorem extrinsic_entries (az el d : ℝ) : extrinsic az el d =
    (let a := Real.pi * az / 180
     let e := Real.pi * el / 180
     (⟨Real.sin a, 0, -Real.cos a, -(Real.cos a * Real.sin e), Real.cos e, -(Real.sin a * Real.sin e),
      Real.cos a * Real.cos e, Real.sin e, Real.sin a * Real.cos e⟩, ⟨0, 0, -d⟩)) := by
  simp only [extrinsic, neg_angle, Real.sin_neg, Real.cos_neg, M3.mul_def, M3.mulVec, Prod.mk.injEq]
  constructor
  · ext <;> simp
  · ext <;> simp

/-- The extrinsic matrix is a rotation; the camera sits at `eye`, sees the origin straight ahead (along -z) at the distance, and stands upright. -/
theorem extrinsic_spec (az el d : ℝ) : M3.IsRot (extrinsic az el d).1 ∧ (extrinsic az el d).1.mulVec (eye az el d) + (extrinsic az el d).2 = 0 ∧
    (extrinsic az el d).1.mulVec 0 + (extrinsic az el d).2 = ⟨0, 0, -d⟩ ∧
    (extrinsic az el d).1.mulVec ⟨0, 1, 0⟩ = ⟨0, Real.cos (Real.pi * el / 180), Real.sin (Real.pi * el / 180)⟩ := by
  rw [extrinsic_entries]
  have h1 := Real.sin_sq_add_cos_sq (Real.pi * az / 180)
  have h2 := Real.sin_sq_add_cos_sq (Real.pi * el / 180)
  simp only [eye]
  generalize Real.sin (Real.pi * az / 180) = sa at *
  generalize Real.cos (Real.pi * az / 180) = ca at *
  generalize Real.sin (Real.pi * el / 180) = se at *
  generalize Real.cos (Real.pi * el / 180) = ce at *
  refine ⟨⟨?_, ?_⟩, ?_, ?_, ?_⟩
  · rw [M3.mul_def]
    simp only [M3.transpose]
    ext <;> simp <;> grind
  · simp only [M3.det]
    grind
  · ext <;> simp [M3.mulVec] <;> grind
  · ext <;> simp [M3.mulVec]
  · ext <;> simp [M3.mulVec]

/-- The calibration matrices turn the camera around its y axis: view coordinates have x to the left, y up, z forward. -/
theorem calibration_view (rt : M3 ℝ × V3 ℝ) (p : V3 ℝ) : view (calibration rt) p =
    ⟨-(rt.1.mulVec p + rt.2).x, (rt.1.mulVec p + rt.2).y, -(rt.1.mulVec p + rt.2).z⟩ := by
  ext <;> simp [view, calibration, M3.mul_def, M3.vecMul, M3.mulVec, M3.transpose] <;> ring

theorem calibration_rot (rt : M3 ℝ × V3 ℝ) (h : M3.IsRot rt.1) : M3.IsRot (calibration rt).1 := by
  obtain ⟨r00, r11, r22, r01, r02, r12, hdet⟩ := h.eqs
  obtain ⟨c00, c11, c22, c01, c02, c12, -⟩ := h.transpose.eqs
  have hd := h.det
  simp only [calibration, M3.mul_def, M3.transpose] at *
  refine ⟨?_, ?_⟩
  · rw [M3.mul_def]
    simp only [M3.transpose]
    ext <;> simp <;> grind
  · simp only [M3.det] at *
    grind

/-- The camera of a view sits at `eye` and sees the origin at the distance. -/
theorem camera_center (az el d : ℝ) : view (calibration (extrinsic az el d)) (eye az el d) = 0 ∧ view (calibration (extrinsic az el d)) 0 = ⟨0, 0, d⟩ := by
  obtain ⟨-, h1, h2, -⟩ := extrinsic_spec az el d
  rw [calibration_view, calibration_view, h1, h2]
  constructor <;> ext <;> simp

/-- Voxels lie where the camera of the same view projects them: x and y of a voxel are NDC coordinates (x to the left, y up), for points at least 0.1 in front. -/
theorem voxel_ndc (rt : M3 ℝ × V3 ℝ) (p : V3 ℝ) (h : 1 / 10 ≤ (view (calibration rt) p).z) :
    (voxelPos rt p).x = (project (view (calibration rt) p)).x ∧ (voxelPos rt p).y = (project (view (calibration rt) p)).y ∧
      (voxelPos rt p).z = (1.002002 - 0.2002002 / (view (calibration rt) p).z - 0.67) * 8 - 1 := by
  rw [calibration_view] at *
  simp only [voxelPos, projectVerts, project] at *
  generalize rt.1.mulVec p + rt.2 = c at *
  obtain ⟨cx, cy, cz⟩ := c
  dsimp only at *
  have hw : ¬ (-cz < 0) := by linarith
  have hz : cz ≠ 0 := by intro h0; rw [h0] at h; norm_num at h
  rw [if_neg hw, abs_of_nonneg (by linarith), max_eq_left h]
  refine ⟨?_, ?_, ?_⟩
  · ring
  · ring
  · field_simp
    ring

/-- Where `voxelize` puts a point: exactly the points whose three indices are in range set an entry. -/
theorem mem_voxelize (n : Nat) (rt : M3 ℝ × V3 ℝ) (pts : List (V3 ℝ)) (i : Int × Int × Int) : i ∈ voxelize n rt pts ↔
    ∃ p ∈ pts, i = (voxelIdx n (voxelPos rt p).z, voxelIdx n (voxelPos rt p).y, voxelIdx n (voxelPos rt p).x) ∧ (0 ≤ i.1 ∧ i.1 < n) ∧
      (0 ≤ i.2.1 ∧ i.2.1 < n) ∧ 0 ≤ i.2.2 ∧ i.2.2 < n := by
  unfold voxelize
  rw [List.mem_filter, List.mem_map]
  simp only [Bool.and_eq_true, decide_eq_true_eq]
  constructor
  · rintro ⟨⟨p, hp, rfl⟩, ⟨h1, h2⟩, h3⟩
    exact ⟨p, hp, rfl, h1, h2, h3⟩
  · rintro ⟨p, hp, rfl, h1, h2, h3⟩
    exact ⟨⟨p, hp, rfl⟩, ⟨h1, h2⟩, h3⟩

/-- Farther points (at least 0.1 in front) have larger depth positions, and the position is within [-1, 1] exactly for depths in a fixed range
(about 0.603 to 2.4414). -/
theorem depth_spec (rt : M3 ℝ × V3 ℝ) (p q : V3 ℝ) (hp : 1 / 10 ≤ (view (calibration rt) p).z) (hq : 1 / 10 ≤ (view (calibration rt) q).z) :
    ((voxelPos rt p).z < (voxelPos rt q).z ↔ (view (calibration rt) p).z < (view (calibration rt) q).z) ∧
    ((-1 ≤ (voxelPos rt p).z ∧ (voxelPos rt p).z ≤ 1) ↔
      0.2002002 / 0.332002 ≤ (view (calibration rt) p).z ∧ (view (calibration rt) p).z ≤ 0.2002002 / 0.082002) := by
  rw [(voxel_ndc rt p hp).2.2, (voxel_ndc rt q hq).2.2]
  generalize (view (calibration rt) p).z = a at *
  generalize (view (calibration rt) q).z = b at *
  have ha : 0 < a := by linarith
  have hb : 0 < b := by linarith
  constructor
  · have : (1.002002 - 0.2002002 / a - 0.67) * 8 - 1 < (1.002002 - 0.2002002 / b - 0.67) * 8 - 1 ↔ (0.2002002 : ℝ) / b < 0.2002002 / a := by
      constructor <;> intro h <;> linarith
    rw [this]
    exact div_lt_div_iff_of_pos_left (by norm_num) hb ha
  · have e1 : -1 ≤ (1.002002 - 0.2002002 / a - 0.67) * 8 - 1 ↔ (0.2002002 : ℝ) / a ≤ 0.332002 := by
      constructor <;> intro h <;> linarith
    have e2 : (1.002002 - 0.2002002 / a - 0.67) * 8 - 1 ≤ 1 ↔ (0.082002 : ℝ) ≤ 0.2002002 / a := by
      constructor <;> intro h <;> linarith
    rw [e1, e2, div_le_iff₀ ha, le_div_iff₀ ha, div_le_iff₀ (by norm_num), le_div_iff₀ (by norm_num), mul_comm a, mul_comm a]

/-- Two models with one and three views: the second picture shows the first mesh with a camera of the second model. -/
theorem pictures_wrong : pictures [1, 3] = .ok [(0, 0), (0, 1), (1, 1), (1, 1)] := by decide

/-! ### Examples -/

example : let d := build [(10, [1, 2]), (20, [3, 4, 5])]
    d.synsets = [10, 10, 20, 20, 20] ∧ d.models = [1, 2, 3, 4, 5] ∧ d.starts.lookup 20 = some 2 ∧ d.nums.lookup 20 = some 3 := by decide
example : pictures [2, 2] = .ok [(0, 0), (0, 0), (1, 1), (1, 1)] := by decide
example : pictures [1, 2] = .error .value := by decide
example : views [1, 3, 5] (some [3, 1]) = [3, 1] ∧ views [1, 3, 5] (some [2]) = [1, 3, 5] := by decide
example : collateTextures [some 4, some 4] = .ok [4, 4] ∧ collateTextures [some 4, none] = .error .value := by decide
example : extrinsic 0 0 2 = (⟨0, 0, -1, 0, 1, 0, 1, 0, 0⟩, ⟨0, 0, -2⟩) := by
  rw [extrinsic_entries]
  simp
example : view (calibration (extrinsic 0 0 2)) ⟨1, 0, 0⟩ = ⟨0, 0, 1⟩ := by
  rw [calibration_view, extrinsic_entries]
  ext <;> simp [M3.mulVec]
  norm_num

/-- **The grid of `voxelize` has its first and last cell at −1 and 1**: the position `-1 + 2 k / (n - 1)` has index `k`, a position's index is at most half a cell away, and all positions in [−1, 1] have an index of the grid. -/
theorem voxelIdx_spec (n : Nat) (hn : 2 ≤ n) (x : ℝ) : (∀ k : Nat, voxelIdx n (-1 + 2 * k / ((n : ℝ) - 1)) = k) ∧ |x - (-1 + 2 * (voxelIdx n x : ℝ) / ((n : ℝ) - 1))| ≤ 1 / ((n : ℝ) - 1) ∧
    (-1 ≤ x → x ≤ 1 → 0 ≤ voxelIdx n x ∧ voxelIdx n x < n) := by
  have h2 : (2 : ℝ) ≤ n := by exact_mod_cast hn
  have hd : (0 : ℝ) < (n : ℝ) - 1 := by linarith
  obtain ⟨hl, hu⟩ := Uv.roundEven_bounds (1 / 2 * ((n : ℝ) - 1) * (x + 1))
  refine ⟨fun k => ?_, ?_, fun h0 h1 => ?_⟩
  · unfold voxelIdx
    have : 1 / 2 * ((n : ℝ) - 1) * (-1 + 2 * k / ((n : ℝ) - 1) + 1) = ((k : Int) : ℝ) := by
      push_cast
      field_simp
      ring
    rw [this, Uv.roundEven_int]
  · have e : x - (-1 + 2 * (voxelIdx n x : ℝ) / ((n : ℝ) - 1)) = 2 * (1 / 2 * ((n : ℝ) - 1) * (x + 1) - (voxelIdx n x : ℝ)) / ((n : ℝ) - 1) := by
      field_simp
      ring
    rw [e, abs_div, abs_of_pos hd]
    refine div_le_div_of_nonneg_right ?_ hd.le
    unfold voxelIdx
    rw [abs_le]
    constructor <;> linarith
  · have a0 : (0 : ℝ) ≤ 1 / 2 * ((n : ℝ) - 1) * (x + 1) := mul_nonneg (by linarith) (by linarith)
    have a1 : 1 / 2 * ((n : ℝ) - 1) * (x + 1) ≤ (n : ℝ) - 1 := by nlinarith
    constructor
    · by_contra h
      push Not at h
      have : voxelIdx n x ≤ -1 := by omega
      have hc : (voxelIdx n x : ℝ) ≤ -1 := by exact_mod_cast this
      unfold voxelIdx at hc
      linarith
    · by_contra h
      push Not at h
      have hc : (n : ℝ) ≤ (voxelIdx n x : ℝ) := by exact_mod_cast h
      unfold voxelIdx at hc
      linarith

example : voxelIdx 3 0 = 1 := by
  have := (voxelIdx_spec 3 (by norm_num) 0).1 1
  norm_num at this
  exact this

end P3D.ShapeNet
