/-
Point/mesh distances: the backward passes `HullHullDistanceBackwardCpu` and `PointHullArrayDistanceBackwardCpu`,
`csrc/point_mesh/point_mesh_cpu.cpp:215-322`, the kernels `DistanceBackwardKernel`, `Point{Face,Edge}Array{Forward,Backward}Kernel`,
`csrc/point_mesh/point_mesh_cuda.cu:209-295, 506-833`, and `point_mesh_edge_distance`, `point_mesh_face_distance`,
`loss/point_mesh_distance.py:262-398`.

Numbers are real numbers.  A hull is a segment (`H = 2`) or a triangle (`H = 3`); the tensor of hulls (T, H, 3) is given by the rows of its
view (T * H, 3).  Indices are valid (those of the forward pass); overflow of `int` indices is not modelled.
-/
import Mathlib.Data.List.GetD
import Verif.PointMesh
import Verif.RasterPointsGrad
import Verif.RasterMeshesGrad

set_option linter.unusedSectionVars false

namespace P3D.PointMesh

open Geom Scatter Chunks Raster Filter Topology

noncomputable section

/-- The vertices of hull `t`: `ExtractHull`, point_mesh_cpu.cpp:17-46. -/
def hull (H : Nat) (hs : Nat → V3 ℝ) (t v : Nat) : V3 ℝ := hs (t * H + v)

/-- `HullDistance`, point_mesh_cpu.cpp:56-92; point_mesh_cuda.cu:91-103. -/
def hullDist (H : Nat) (minArea : ℝ) (p : V3 ℝ) (h : Nat → V3 ℝ) : ℝ :=
  if H = 3 then pointTri3 p (h 0) (h 1) (h 2) minArea else pointLine3 p (h 0) (h 1)

/-- The values computed by `HullHullDistanceBackward`, point_mesh_cpu.cpp:94-142: gradients of the point and of the vertices. -/
def hullGrad (H : Nat) (minArea : ℝ) (p : V3 ℝ) (h : Nat → V3 ℝ) (g : ℝ) : V3 ℝ × List (V3 ℝ) :=
  if H = 3 then
    let r := pointTri3Backward p (h 0) (h 1) (h 2) g minArea
    (r.1, [r.2.1, r.2.2.1, r.2.2.2])
  else
    let r := pointLine3Backward p (h 0) (h 1) g
    (r.1, [r.2.1, r.2.2])

/-- One gradient computation: point, hull and incoming gradient. -/
structure Item where
  p : Nat
  t : Nat
  g : ℝ

/-- `IncrementPoint`, point_mesh_cpu.cpp:48-53. -/
def incr (k : Nat) (v : V3 ℝ) : List ((Nat × Nat) × ℝ) := [((k, 0), v.x), ((k, 1), v.y), ((k, 2), v.z)]

/-- Increments of consecutive rows. -/
def incrs (k : Nat) : List (V3 ℝ) → List ((Nat × Nat) × ℝ)
  | [] => []
  | v :: l => incr k v ++ incrs (k + 1) l

/-- The increments of the gradient of the points. -/
def ptAdds (H : Nat) (minArea : ℝ) (P hs : Nat → V3 ℝ) (it : Item) : List ((Nat × Nat) × ℝ) :=
  incr it.p (hullGrad H minArea (P it.p) (hull H hs it.t) it.g).1

/-- The increments of the gradient of the hulls. -/
def hullAdds (H : Nat) (minArea : ℝ) (P hs : Nat → V3 ℝ) (it : Item) : List ((Nat × Nat) × ℝ) :=
  incrs (it.t * H) (hullGrad H minArea (P it.p) (hull H hs it.t) it.g).2

/-- The computations of `HullHullDistanceBackwardCpu`, point_mesh_cpu.cpp:241-251.  `swap` is false for the point to hull
distances, true for the hull to point distances. -/
def items (swap : Bool) (idx : Nat → Nat) (g : Nat → ℝ) (a : Nat) : Item :=
  if swap then ⟨idx a, a, g a⟩ else ⟨a, idx a, g a⟩

/-- point_mesh_cpu.cpp:215-253: gradients of points and hulls for `A` rows. -/
def cpuBackward (H : Nat) (minArea : ℝ) (P hs : Nat → V3 ℝ) (swap : Bool) (A : Nat) (idx : Nat → Nat) (g : Nat → ℝ) :
    (Nat × Nat → ℝ) × (Nat × Nat → ℝ) :=
  (scatterAdd ((List.range A).flatMap fun a => ptAdds H minArea P hs (items swap idx g a)),
   scatterAdd ((List.range A).flatMap fun a => hullAdds H minArea P hs (items swap idx g a)))

/-- point_mesh_cpu.cpp:281-322: all pairs of `A` points and `B` hulls. -/
def cpuArrayBackward (H : Nat) (minArea : ℝ) (P hs : Nat → V3 ℝ) (A B : Nat) (g : Nat → Nat → ℝ) : (Nat × Nat → ℝ) × (Nat × Nat → ℝ) :=
  (scatterAdd ((List.range A).flatMap fun p => (List.range B).flatMap fun t => ptAdds H minArea P hs ⟨p, t, g p t⟩),
   scatterAdd ((List.range A).flatMap fun p => (List.range B).flatMap fun t => hullAdds H minArea P hs ⟨p, t, g p t⟩))

/-! ### CUDA -/

/-- point_mesh_cuda.cu:275-277: addresses of the additions to `grad_points`. -/
def cudaPt (H : Nat) (minArea : ℝ) (P hs : Nat → V3 ℝ) (it : Item) : List (Nat × ℝ) :=
  let r := hullGrad H minArea (P it.p) (hull H hs it.t) it.g
  [(it.p * 3 + 0, r.1.x), (it.p * 3 + 1, r.1.y), (it.p * 3 + 2, r.1.z)]

/-- point_mesh_cuda.cu:279-292: addresses of the additions to `grad_face`, `face_index = t * H`. -/
def cudaHull (H : Nat) (minArea : ℝ) (P hs : Nat → V3 ℝ) (it : Item) : List (Nat × ℝ) :=
  let r := hullGrad H minArea (P it.p) (hull H hs it.t) it.g
  let f := it.t * H
  let v0 := r.2.getD 0 0
  let v1 := r.2.getD 1 0
  let v2 := r.2.getD 2 0
  [(f * 3 + 0 * 3 + 0, v0.x), (f * 3 + 0 * 3 + 1, v0.y), (f * 3 + 0 * 3 + 2, v0.z),
   (f * 3 + 1 * 3 + 0, v1.x), (f * 3 + 1 * 3 + 1, v1.y), (f * 3 + 1 * 3 + 2, v1.z)] ++
  if H = 3 then [(f * 3 + 2 * 3 + 0, v2.x), (f * 3 + 2 * 3 + 1, v2.y), (f * 3 + 2 * 3 + 2, v2.z)] else []

/-- The rows visited by `DistanceBackwardKernel`, point_mesh_cuda.cu:234-235, 368-369. -/
def cudaRows (A : Nat) : List Nat := gridStride 64 512 A

/-- The computation of the array kernels for flat index `i`, point_mesh_cuda.cu:588-600: `t = i / P`, `p = i % P`, `grad_dists[p * T + t]`. -/
def arrayItem (A B : Nat) (g : Nat → ℝ) (i : Nat) : Item := ⟨i % A, i / A, g (i % A * B + i / A)⟩

/-- point_mesh_cuda.cu:506-532: the writes of the array forward kernels. -/
def cudaArray (H : Nat) (minArea : ℝ) (P hs : Nat → V3 ℝ) (A B : Nat) : List (Nat × ℝ) :=
  (gridStride 1024 64 (A * B)).map fun i => (i % A * B + i / A, hullDist H minArea (P (i % A)) (hull H hs (i / A)))

/-! ### CPU and GPU gradients -/

/-- Flat address of an entry of a tensor with rows of length 3. -/
abbrev flat3 (c : (Nat × Nat) × ℝ) : Nat × ℝ := (c.1.1 * 3 + c.1.2, c.2)

theorem scatterAdd_flat3 {cs : List ((Nat × Nat) × ℝ)} (h : ∀ c ∈ cs, c.1.2 < 3) {k j : Nat} (hj : j < 3) :
    scatterAdd (cs.map flat3) (k * 3 + j) = scatterAdd cs (k, j) := by
  induction cs with
  | nil => rfl
  | cons c cs ih =>
    rw [List.map_cons, scatterAdd_cons, scatterAdd_cons, ih fun c hc => h c (by simp [hc])]
    have := h c (by simp)
    obtain ⟨⟨a, b⟩, x⟩ := c
    simp only [Prod.mk.injEq] at this ⊢
    congr 1
    by_cases e : a = k ∧ b = j
    · rw [if_pos e, if_pos (by omega)]
    · rw [if_neg e, if_neg (by omega)]

theorem incr_lt {k : Nat} {v : V3 ℝ} {c} (h : c ∈ incr k v) : c.1.1 = k ∧ c.1.2 < 3 := by
  simp only [incr, List.mem_cons, List.not_mem_nil, or_false] at h
  rcases h with rfl | rfl | rfl <;> simp

theorem incrs_lt {k : Nat} {l : List (V3 ℝ)} {c} (h : c ∈ incrs k l) : k ≤ c.1.1 ∧ c.1.1 < k + l.length ∧ c.1.2 < 3 := by
  induction l generalizing k with
  | nil => simp [incrs] at h
  | cons v l ih =>
    rw [incrs, List.mem_append] at h
    rcases h with h | h
    · have := incr_lt h
      rw [List.length_cons]; omega
    · have := ih h
      rw [List.length_cons]; omega

theorem cudaPt_eq (H : Nat) (minArea : ℝ) (P hs : Nat → V3 ℝ) (it : Item) :
    cudaPt H minArea P hs it = (ptAdds H minArea P hs it).map flat3 := rfl

theorem cudaHull_eq {H : Nat} (hH : H = 2 ∨ H = 3) (minArea : ℝ) (P hs : Nat → V3 ℝ) (it : Item) :
    cudaHull H minArea P hs it = (hullAdds H minArea P hs it).map flat3 := by
  rcases hH with rfl | rfl
  · simp [cudaHull, hullAdds, hullGrad, incrs, incr, flat3]
    omega
  · simp [cudaHull, hullAdds, hullGrad, incrs, incr, flat3]
    omega

theorem flatMap_map_flat3 {α : Type} (l : List α) (f : α → List ((Nat × Nat) × ℝ)) :
    (l.flatMap fun a => (f a).map flat3) = (l.flatMap f).map flat3 := by
  rw [List.map_flatMap]

theorem ptAdds_lt {H : Nat} {minArea : ℝ} {P hs : Nat → V3 ℝ} {it : Item} {c} (h : c ∈ ptAdds H minArea P hs it) :
    c.1.1 = it.p ∧ c.1.2 < 3 := incr_lt h

theorem hullGrad_length {H : Nat} (hH : H = 2 ∨ H = 3) (minArea : ℝ) (p : V3 ℝ) (h : Nat → V3 ℝ) (g : ℝ) :
    (hullGrad H minArea p h g).2.length = H := by
  rcases hH with rfl | rfl <;> simp [hullGrad]

theorem hullAdds_lt {H : Nat} (hH : H = 2 ∨ H = 3) {minArea : ℝ} {P hs : Nat → V3 ℝ} {it : Item} {c} (h : c ∈ hullAdds H minArea P hs it) :
    it.t * H ≤ c.1.1 ∧ c.1.1 < it.t * H + H ∧ c.1.2 < 3 := by
  have := incrs_lt h
  rwa [hullGrad_length hH] at this

/-- **Point/mesh gradients, GPU.** The kernel computes the same gradients as the CPU, in any order of the atomic additions. -/
theorem cuda_backward {H : Nat} (hH : H = 2 ∨ H = 3) (minArea : ℝ) (P hs : Nat → V3 ℝ) (swap : Bool) (A : Nat) (idx : Nat → Nat) (g : Nat → ℝ)
    {cs cs'} (hp : cs.Perm ((cudaRows A).flatMap fun a => cudaPt H minArea P hs (items swap idx g a)))
    (hp' : cs'.Perm ((cudaRows A).flatMap fun a => cudaHull H minArea P hs (items swap idx g a))) {k c : Nat} (hc : c < 3) :
    scatterAdd cs (k * 3 + c) = (cpuBackward H minArea P hs swap A idx g).1 (k, c)
      ∧ scatterAdd cs' (k * 3 + c) = (cpuBackward H minArea P hs swap A idx g).2 (k, c) := by
  have hr : (cudaRows A).Perm (List.range A) := gridStride_perm (by omega) (by omega) A
  constructor
  · rw [scatterAdd_perm (hp.trans (hr.flatMap_right _))]
    simp only [cudaPt_eq]
    rw [flatMap_map_flat3, scatterAdd_flat3 _ hc]
    · rfl
    · intro x hx
      obtain ⟨a, _, ha⟩ := List.mem_flatMap.mp hx
      exact (ptAdds_lt ha).2
  · rw [scatterAdd_perm (hp'.trans (hr.flatMap_right _))]
    simp only [cudaHull_eq hH]
    rw [flatMap_map_flat3, scatterAdd_flat3 _ hc]
    · rfl
    · intro x hx
      obtain ⟨a, _, ha⟩ := List.mem_flatMap.mp hx
      exact (hullAdds_lt hH ha).2.2

/-- The flat indices of the array kernels run through all pairs. -/
theorem array_perm {α : Type} (A B : Nat) (f : Nat → Nat → List α) :
    ((gridStride 1024 64 (A * B)).flatMap fun i => f (i % A) (i / A)).Perm
      ((List.range A).flatMap fun p => (List.range B).flatMap fun t => f p t) := by
  refine ((gridStride_perm (by omega) (by omega) (A * B)).flatMap_right _).trans ?_
  rw [Nat.mul_comm, flatMap_range_mul]
  have e : ((List.range B).flatMap fun q => (List.range A).flatMap fun r => f ((q * A + r) % A) ((q * A + r) / A))
      = (List.range B).flatMap fun q => (List.range A).flatMap fun r => f r q := by
    apply flatMap_congr'
    intro q _
    apply flatMap_congr'
    intro r hr
    rw [div_decode (List.mem_range.mp hr), mod_decode (List.mem_range.mp hr)]
  rw [e]
  generalize List.range B = lb
  induction lb with
  | nil => simp
  | cons b lb ih =>
    simp only [List.flatMap_cons]
    exact ((ih.append_left _)).trans (List.flatMap_append_perm _ _ _)

/-- **Array gradients, GPU.** -/
theorem cuda_array_backward {H : Nat} (hH : H = 2 ∨ H = 3) (minArea : ℝ) (P hs : Nat → V3 ℝ) (A B : Nat) (g : Nat → ℝ)
    {cs cs'} (hp : cs.Perm ((gridStride 1024 64 (A * B)).flatMap fun i => cudaPt H minArea P hs (arrayItem A B g i)))
    (hp' : cs'.Perm ((gridStride 1024 64 (A * B)).flatMap fun i => cudaHull H minArea P hs (arrayItem A B g i))) {k c : Nat} (hc : c < 3) :
    scatterAdd cs (k * 3 + c) = (cpuArrayBackward H minArea P hs A B fun p t => g (p * B + t)).1 (k, c)
      ∧ scatterAdd cs' (k * 3 + c) = (cpuArrayBackward H minArea P hs A B fun p t => g (p * B + t)).2 (k, c) := by
  constructor
  · rw [scatterAdd_perm (hp.trans (array_perm A B fun p t => cudaPt H minArea P hs ⟨p, t, g (p * B + t)⟩))]
    simp only [cudaPt_eq, flatMap_map_flat3]
    rw [scatterAdd_flat3 _ hc]
    · rfl
    · intro x hx
      obtain ⟨a, _, ha⟩ := List.mem_flatMap.mp hx
      obtain ⟨b, _, hb⟩ := List.mem_flatMap.mp ha
      exact (ptAdds_lt hb).2
  · rw [scatterAdd_perm (hp'.trans (array_perm A B fun p t => cudaHull H minArea P hs ⟨p, t, g (p * B + t)⟩))]
    simp only [cudaHull_eq hH, flatMap_map_flat3]
    rw [scatterAdd_flat3 _ hc]
    · rfl
    · intro x hx
      obtain ⟨a, _, ha⟩ := List.mem_flatMap.mp hx
      obtain ⟨b, _, hb⟩ := List.mem_flatMap.mp ha
      exact (hullAdds_lt hH hb).2.2

/-- **Array distances, GPU.** Entry (p, t) of the output is the distance of point `p` and hull `t`. -/
theorem cuda_array_forward (H : Nat) (minArea : ℝ) (P hs : Nat → V3 ℝ) {A B : Nat} {ws} (hp : ws.Perm (cudaArray H minArea P hs A B))
    (init : Nat → ℝ) {p t : Nat} (hpA : p < A) (ht : t < B) :
    Store.storeAll init ws (p * B + t) = hullDist H minArea (P p) (hull H hs t) := by
  have hr := gridStride_perm (grid := 1024) (block := 64) (by omega) (by omega) (A * B)
  apply storeAll_mem
  · rw [hp.mem_iff, cudaArray, List.mem_map]
    refine ⟨t * A + p, ?_, ?_⟩
    · rw [hr.mem_iff, List.mem_range]; nlinarith
    · rw [mod_decode hpA, div_decode hpA]
  · intro w hw he
    rw [hp.mem_iff, cudaArray, List.mem_map] at hw
    obtain ⟨i, hi, rfl⟩ := hw
    rw [hr.mem_iff, List.mem_range] at hi
    have h1 : i / A < B := Nat.div_lt_of_lt_mul hi
    have e1 : i % A = p := by
      have := congrArg (· / B) he
      simpa only [div_decode h1, div_decode ht] using this
    have e2 : i / A = t := by
      have := congrArg (· % B) he
      simpa only [mod_decode h1, mod_decode ht] using this
    simp only [e1, e2]

/-! ### Derivatives -/

/-- The minimum of finitely many differentiable functions, where all those attaining it have the same derivative. -/
theorem closest_deriv {f : Nat → ℝ → ℝ} {D : Nat → ℝ} {lo hi : Nat} {big : ℝ} (hne : lo < hi)
    (hf : ∀ j, lo ≤ j → j < hi → HasDerivAt (f j) (D j) 0) {M : ℝ → ℝ × Nat}
    (hM : ∀ᶠ t in 𝓝 0, Closest (fun j => f j t) big lo hi (M t))
    (htie : ∀ j, lo ≤ j → j < hi → f j 0 = (M 0).1 → D j = D (M 0).2) :
    HasDerivAt (fun t => (M t).1) (D (M 0).2) 0 := by
  have h0 := hM.self_of_nhds
  rcases h0 with ⟨h, _⟩ | ⟨r1, r2, r3, r4⟩
  · omega
  simp only at r3 r4
  rw [hasDerivAt_iff_isLittleO_nhds_zero, Asymptotics.isLittleO_iff]
  intro ε hε
  have hup := (Asymptotics.isLittleO_iff.mp (hasDerivAt_iff_isLittleO_nhds_zero.mp (hf _ r1 r2))) hε
  have hlow : ∀ j, lo ≤ j → j < hi → ∀ᶠ t in 𝓝 (0 : ℝ), (M 0).1 + D (M 0).2 * t - ε * |t| ≤ f j t := by
    intro j h1 h2
    rcases (r3 ▸ r4 j h1 h2 : (M 0).1 ≤ f j 0).eq_or_lt with h | h
    · have := (Asymptotics.isLittleO_iff.mp (hasDerivAt_iff_isLittleO_nhds_zero.mp (hf j h1 h2))) hε
      filter_upwards [this] with t ht
      rw [htie j h1 h2 h.symm, ← h, zero_add, Real.norm_eq_abs, Real.norm_eq_abs, smul_eq_mul] at ht
      have := (abs_le.mp ht).1
      nlinarith [mul_comm t (D (M 0).2)]
    · have hc : ContinuousAt (fun t : ℝ => (M 0).1 + D (M 0).2 * t - ε * |t|) 0 := by fun_prop
      have := hc.eventually_lt (hf j h1 h2).continuousAt (by simpa using h)
      filter_upwards [this] with t ht using ht.le
  have hall : ∀ᶠ t in 𝓝 (0 : ℝ), ∀ j ∈ Finset.Ico lo hi, (M 0).1 + D (M 0).2 * t - ε * |t| ≤ f j t := by
    rw [Filter.eventually_all_finset]
    intro j hj
    rw [Finset.mem_Ico] at hj
    exact hlow j hj.1 hj.2
  filter_upwards [hup, hall, hM] with t h1 h2 h3
  rcases h3 with ⟨h, _⟩ | ⟨s1, s2, s3, s4⟩
  · omega
  simp only at s3 s4
  rw [zero_add, Real.norm_eq_abs, Real.norm_eq_abs, smul_eq_mul] at h1 ⊢
  have a1 := h2 _ (Finset.mem_Ico.mpr ⟨s1, s2⟩)
  have a2 := s4 _ r1 r2
  have a3 := (abs_le.mp h1).2
  rw [abs_le]
  rw [s3]
  rw [r3] at a1 ⊢
  constructor <;> nlinarith [mul_comm t (D (M 0).2)]

theorem area3_eq (v0 v1 v2 : V3 ℝ) : area3 v0 v1 v2 = Rot.norm (rawNormal v0 v1 v2) / 2 := by
  unfold area3 Rot.norm
  congr 2
  simp only [rawNormal, V3.normSq, V3.dot, V3.cross]
  ring

/-- The side branch is used in a neighbourhood: the triangle is too small, or the foot of the perpendicular is strictly outside. -/
def OffPlane (p v0 v1 v2 : V3 ℝ) (minArea : ℝ) : Prop :=
  Rot.norm (rawNormal v0 v1 v2) / 2 < minArea ∨
  (kEps < Rot.norm (rawNormal v0 v1 v2) ∧ minArea < Rot.norm (rawNormal v0 v1 v2) / 2 ∧
    ((foot p v0 v1 v2).1 < 0 ∨ (foot p v0 v1 v2).2 < 0 ∨
      1 + kEps / V3.normSq (rawNormal v0 v1 v2) < (foot p v0 v1 v2).1 + (foot p v0 v1 v2).2))

theorem offPlane_open {p v0 v1 v2 : V3 ℝ} {minArea : ℝ} (h : OffPlane p v0 v1 v2 minArea) (dp d0 d1 d2 : V3 ℝ) :
    ∀ᶠ t in 𝓝 (0 : ℝ), ¬ UsePlane (line3 p dp t) (line3 v0 d0 t) (line3 v1 d1 t) (line3 v2 d2 t) minArea := by
  have cN2 : Continuous fun t : ℝ => V3.normSq (rawNormal (line3 v0 d0 t) (line3 v1 d1 t) (line3 v2 d2 t)) := by
    simp only [rawNormal, line3, V3.normSq, V3.dot, V3.cross, V3.sub_x, V3.sub_y, V3.sub_z, V3.add_x, V3.add_y,
      V3.add_z, V3.smul_x, V3.smul_y, V3.smul_z]
    fun_prop
  have cN : Continuous fun t : ℝ => Rot.norm (rawNormal (line3 v0 d0 t) (line3 v1 d1 t) (line3 v2 d2 t)) :=
    Real.continuous_sqrt.comp cN2
  rcases h with h | ⟨h, ha, ho⟩
  · have E := ((cN.div_const 2).continuousAt (x := 0)).eventually (gt_mem_nhds (a := minArea) (by simpa only [line3_zero] using h))
    filter_upwards [E] with t ht hu
    exact hu.1.1 (by rw [area3_eq]; exact ht)
  · have hk := kEps_pos (K := ℝ)
    have hm := Rot.norm_mul_self (rawNormal v0 v1 v2)
    have hpos : 0 < Rot.norm (rawNormal v0 v1 v2) := hk.trans h
    have hn2 : V3.normSq (rawNormal v0 v1 v2) ≠ 0 := by rw [← hm]; positivity
    have hz : V3.normSq (rawNormal (line3 v0 d0 0) (line3 v1 d1 0) (line3 v2 d2 0)) ≠ 0 := by
      simpa only [line3_zero] using hn2
    have cf1 : ContinuousAt (fun t : ℝ => (foot (line3 p dp t) (line3 v0 d0 t) (line3 v1 d1 t) (line3 v2 d2 t)).1) 0 := by
      simp only [foot]
      refine ContinuousAt.div (Continuous.continuousAt ?_) cN2.continuousAt hz
      simp only [line3, V3.dot, V3.sub_x, V3.sub_y, V3.sub_z, V3.add_x, V3.add_y, V3.add_z, V3.smul_x, V3.smul_y,
        V3.smul_z]
      fun_prop
    have cf2 : ContinuousAt (fun t : ℝ => (foot (line3 p dp t) (line3 v0 d0 t) (line3 v1 d1 t) (line3 v2 d2 t)).2) 0 := by
      simp only [foot]
      refine ContinuousAt.div (Continuous.continuousAt ?_) cN2.continuousAt hz
      simp only [line3, V3.dot, V3.sub_x, V3.sub_y, V3.sub_z, V3.add_x, V3.add_y, V3.add_z, V3.smul_x, V3.smul_y,
        V3.smul_z]
      fun_prop
    have E4 := (cN.continuousAt (x := 0)).eventually (lt_mem_nhds (a := (kEps : ℝ)) (by simpa only [line3_zero] using h))
    have E5 := ((cN.div_const 2).continuousAt (x := 0)).eventually (lt_mem_nhds (a := minArea) (by simpa only [line3_zero] using ha))
    rcases ho with ho | ho | ho
    · have E := cf1.eventually (gt_mem_nhds (a := (0 : ℝ)) (by simpa only [line3_zero] using ho))
      filter_upwards [E, E4, E5] with t a1 a4 a5
      rw [usePlane_iff a4 a5.le]
      exact fun hc => absurd hc.1 (not_le.mpr a1)
    · have E := cf2.eventually (gt_mem_nhds (a := (0 : ℝ)) (by simpa only [line3_zero] using ho))
      filter_upwards [E, E4, E5] with t a1 a4 a5
      rw [usePlane_iff a4 a5.le]
      exact fun hc => absurd hc.2.1 (not_le.mpr a1)
    · have E := ((continuousAt_const (y := (1 : ℝ))).add ((continuousAt_const (y := (kEps : ℝ))).div cN2.continuousAt hz)).eventually_lt
        (cf1.add cf2) (by simpa only [line3_zero, Pi.add_apply, Pi.div_apply] using ho)
      filter_upwards [E, E4, E5] with t a1 a4 a5
      rw [usePlane_iff a4 a5.le]
      exact fun hc => absurd hc.2.2 (not_le.mpr a1)

/-- Squared distance to side 0 (v0 v1), 1 (v0 v2) or 2 (v1 v2). -/
def side (p v0 v1 v2 : V3 ℝ) : Nat → ℝ
  | 0 => pointLine3 p v0 v1
  | 1 => pointLine3 p v0 v2
  | _ => pointLine3 p v1 v2

/-- The gradient of the distance to a side. -/
def sideGrad (p v0 v1 v2 : V3 ℝ) (g : ℝ) : Nat → V3 ℝ × V3 ℝ × V3 ℝ × V3 ℝ
  | 0 => let r := pointLine3Backward p v0 v1 g; (r.1, r.2.1, r.2.2, 0)
  | 1 => let r := pointLine3Backward p v0 v2 g; (r.1, r.2.1, 0, r.2.2)
  | _ => let r := pointLine3Backward p v1 v2 g; (r.1, 0, r.2.1, r.2.2)

def pair4' (r : V3 ℝ × V3 ℝ × V3 ℝ × V3 ℝ) (dp d0 d1 d2 : V3 ℝ) : ℝ :=
  V3.dot r.1 dp + V3.dot r.2.1 d0 + V3.dot r.2.2.1 d1 + V3.dot r.2.2.2 d2

/-- A configuration of a point and a triangle whose closest point is on the boundary and where the distance is differentiable:
the sides attaining the minimum (two, if the closest point is a vertex) have the same gradient. -/
def Boundary (p v0 v1 v2 : V3 ℝ) (minArea : ℝ) : Prop :=
  OffPlane p v0 v1 v2 minArea ∧ kEps < V3.dot (v1 - v0) (v1 - v0) ∧ kEps < V3.dot (v2 - v0) (v2 - v0) ∧
  kEps < V3.dot (v2 - v1) (v2 - v1) ∧
  ∀ i < 3, ∀ j < 3, (∀ k < 3, side p v0 v1 v2 i ≤ side p v0 v1 v2 k) → side p v0 v1 v2 j = side p v0 v1 v2 i →
    ∀ g, sideGrad p v0 v1 v2 g i = sideGrad p v0 v1 v2 g j

/-- A configuration whose closest point is strictly inside the triangle. -/
def Interior (p v0 v1 v2 : V3 ℝ) (minArea : ℝ) : Prop :=
  kEps < Rot.norm (rawNormal v0 v1 v2) ∧ minArea < Rot.norm (rawNormal v0 v1 v2) / 2 ∧ 0 < (foot p v0 v1 v2).1 ∧
  0 < (foot p v0 v1 v2).2 ∧ (foot p v0 v1 v2).1 + (foot p v0 v1 v2).2 < 1 + kEps / V3.normSq (rawNormal v0 v1 v2)

theorem hd_side {p v0 v1 v2 : V3 ℝ} (h01 : kEps < V3.dot (v1 - v0) (v1 - v0)) (h02 : kEps < V3.dot (v2 - v0) (v2 - v0))
    (h12 : kEps < V3.dot (v2 - v1) (v2 - v1)) (dp d0 d1 d2 : V3 ℝ) (g : ℝ) (j : Nat) :
    HasDerivAt (fun t => g * side (line3 p dp t) (line3 v0 d0 t) (line3 v1 d1 t) (line3 v2 d2 t) j)
      (pair4' (sideGrad p v0 v1 v2 g j) dp d0 d1 d2) 0 := by
  rcases j with _ | _ | j
  · refine hd_congr (pointLine3Backward_deriv (p := p) h01 dp d0 d1 g) (fun _ => rfl) ?_
    simp [pair4', sideGrad, V3.dot]
  · refine hd_congr (pointLine3Backward_deriv (p := p) h02 dp d0 d2 g) (fun _ => rfl) ?_
    simp [pair4', sideGrad, V3.dot]
  · refine hd_congr (pointLine3Backward_deriv (p := p) h12 dp d1 d2 g) (fun _ => rfl) ?_
    simp [pair4', sideGrad, V3.dot]

/-- The side chosen by `PointTriangle3DistanceBackward`. -/
theorem chosen_side {p v0 v1 v2 : V3 ℝ} {minArea : ℝ} (h : ¬ UsePlane p v0 v1 v2 minArea) :
    ∃ i < 3, (∀ k < 3, side p v0 v1 v2 i ≤ side p v0 v1 v2 k) ∧ pointTri3 p v0 v1 v2 minArea = side p v0 v1 v2 i ∧
      ∀ g, pointTri3Backward p v0 v1 v2 g minArea = sideGrad p v0 v1 v2 g i := by
  rw [pointTri3_else h]
  simp only [pointTri3Backward, if_neg h]
  have h3 : ∀ i, (side p v0 v1 v2 i ≤ side p v0 v1 v2 0 ∧ side p v0 v1 v2 i ≤ side p v0 v1 v2 1 ∧ side p v0 v1 v2 i ≤ side p v0 v1 v2 2) →
      ∀ k < 3, side p v0 v1 v2 i ≤ side p v0 v1 v2 k := by
    intro i hi k hk
    interval_cases k <;> tauto
  have e0 : side p v0 v1 v2 0 = pointLine3 p v0 v1 := rfl
  have e1 : side p v0 v1 v2 1 = pointLine3 p v0 v2 := rfl
  have e2 : side p v0 v1 v2 2 = pointLine3 p v1 v2 := rfl
  by_cases c0 : pointLine3 p v0 v1 ≤ pointLine3 p v0 v2 ∧ pointLine3 p v0 v1 ≤ pointLine3 p v1 v2
  · refine ⟨0, by omega, h3 0 ⟨le_rfl, c0.1, c0.2⟩, ?_, fun g => by rw [if_pos c0]; rfl⟩
    rw [min_eq_left c0.1, min_eq_left c0.2]; rfl
  · by_cases c1 : pointLine3 p v0 v2 ≤ pointLine3 p v0 v1 ∧ pointLine3 p v0 v2 ≤ pointLine3 p v1 v2
    · refine ⟨1, by omega, h3 1 ⟨c1.1, le_rfl, c1.2⟩, ?_, fun g => by rw [if_neg c0, if_pos c1]; rfl⟩
      rw [min_eq_right c1.1, min_eq_left c1.2]; rfl
    · have c2 : pointLine3 p v1 v2 ≤ pointLine3 p v0 v1 ∧ pointLine3 p v1 v2 ≤ pointLine3 p v0 v2 := by
        rw [not_and_or, not_le, not_le] at c0 c1
        rcases c0 with c0 | c0 <;> rcases c1 with c1 | c1
        · exact absurd c0 (not_lt.mpr c1.le)
        · exact ⟨(c1.trans c0).le, c1.le⟩
        · exact ⟨c0.le, (c0.trans c1).le⟩
        · exact ⟨c0.le, c1.le⟩
      refine ⟨2, by omega, h3 2 ⟨c2.1, c2.2, le_rfl⟩, ?_, fun g => by rw [if_neg c0, if_neg c1, if_pos c2]; rfl⟩
      rw [min_eq_right (le_min c2.1 c2.2)]; rfl

/-- **Triangle distance, closest point on the boundary.** The backward pass is the derivative of the forward pass, also where the closest
point is a vertex. -/
theorem pointTri3Backward_boundary {p v0 v1 v2 : V3 ℝ} {minArea : ℝ} (h : Boundary p v0 v1 v2 minArea) (dp d0 d1 d2 : V3 ℝ) (g : ℝ) :
    HasDerivAt (fun t => g * pointTri3 (line3 p dp t) (line3 v0 d0 t) (line3 v1 d1 t) (line3 v2 d2 t) minArea)
      (pair4' (pointTri3Backward p v0 v1 v2 g minArea) dp d0 d1 d2) 0 := by
  obtain ⟨ho, h01, h02, h12, ht⟩ := h
  have hev := offPlane_open ho dp d0 d1 d2
  have hn : ¬ UsePlane p v0 v1 v2 minArea := by simpa only [line3_zero] using hev.self_of_nhds
  obtain ⟨i, hi, hmin, _, hg⟩ := chosen_side hn
  -- the distance is a minimum of three functions
  have key : HasDerivAt (fun t => pointTri3 (line3 p dp t) (line3 v0 d0 t) (line3 v1 d1 t) (line3 v2 d2 t) minArea)
      (pair4' (sideGrad p v0 v1 v2 1 i) dp d0 d1 d2) 0 := by
    classical
    let M : ℝ → ℝ × Nat := fun t =>
      (pointTri3 (line3 p dp t) (line3 v0 d0 t) (line3 v1 d1 t) (line3 v2 d2 t) minArea,
        if h : UsePlane (line3 p dp t) (line3 v0 d0 t) (line3 v1 d1 t) (line3 v2 d2 t) minArea then 0 else (chosen_side h).choose)
    have hM : ∀ᶠ t in 𝓝 (0 : ℝ), Closest (fun j => side (line3 p dp t) (line3 v0 d0 t) (line3 v1 d1 t) (line3 v2 d2 t) j) 0 0 3 (M t) := by
      filter_upwards [hev] with t ht
      right
      obtain ⟨a1, a2, a3, _⟩ := (chosen_side ht).choose_spec
      simp only [M, dif_neg ht]
      exact ⟨Nat.zero_le _, a1, a3, fun j _ hj => a2 j hj⟩
    have hM0 : (M 0).1 = side p v0 v1 v2 (M 0).2 ∧ (M 0).2 < 3 ∧ ∀ k < 3, side p v0 v1 v2 (M 0).2 ≤ side p v0 v1 v2 k := by
      have := hM.self_of_nhds
      rcases this with ⟨h, _⟩ | ⟨_, b, c, d⟩
      · omega
      · simp only [line3_zero] at c d
        exact ⟨c, b, fun k hk => d k (Nat.zero_le _) hk⟩
    have hd := closest_deriv (f := fun j t => side (line3 p dp t) (line3 v0 d0 t) (line3 v1 d1 t) (line3 v2 d2 t) j)
      (D := fun j => pair4' (sideGrad p v0 v1 v2 1 j) dp d0 d1 d2) (lo := 0) (hi := 3) (by omega)
      (fun j _ _ => by simpa only [one_mul] using hd_side (p := p) h01 h02 h12 dp d0 d1 d2 1 j) hM
      (fun j _ hj e => by
        simp only [line3_zero] at e
        rw [hM0.1] at e
        rw [ht _ hM0.2.1 j hj hM0.2.2 e])
    refine hd_congr hd (fun _ => rfl) ?_
    rw [ht i hi (M 0).2 hM0.2.1 hmin (le_antisymm (hM0.2.2 i hi) (hmin _ hM0.2.1))]
  have hk := key.const_mul g
  refine hd_congr hk (fun _ => rfl) ?_
  rw [hg]
  have u1 := hd_side (p := p) h01 h02 h12 dp d0 d1 d2 g i
  have u2 := (hd_side (p := p) h01 h02 h12 dp d0 d1 d2 1 i).const_mul g
  simp only [one_mul] at u2
  exact u1.unique u2

/-- A point and a hull where the distance is differentiable. -/
def Regular' (H : Nat) (minArea : ℝ) (p : V3 ℝ) (h : Nat → V3 ℝ) : Prop :=
  (H = 2 ∧ kEps < V3.dot (h 1 - h 0) (h 1 - h 0)) ∨
  (H = 3 ∧ (Interior p (h 0) (h 1) (h 2) minArea ∨ Boundary p (h 0) (h 1) (h 2) minArea))

open Classical in
/-- The difference of the backward pass and the derivative, from the 1e-8 in the normalization of the normal (see C34); zero for segments, for
closest points on the boundary, and when only the point moves. -/
def gradErr (H : Nat) (minArea : ℝ) (p : V3 ℝ) (h : Nat → V3 ℝ) (dh : Nat → V3 ℝ) : ℝ :=
  if H = 3 ∧ UsePlane p (h 0) (h 1) (h 2) minArea then
    2 * planeT p (h 0) (h 1) (h 2) ^ 2 / (Rot.norm (rawNormal (h 0) (h 1) (h 2)) + kEps) * normErr (h 0) (h 1) (h 2)
      * V3.dot (rawNormal (h 0) (h 1) (h 2)) (dRaw (h 0) (h 1) (h 2) (dh 0) (dh 1) (dh 2))
  else 0

theorem gradErr_still (H : Nat) (minArea : ℝ) (p : V3 ℝ) (h : Nat → V3 ℝ) : gradErr H minArea p h (fun _ => 0) = 0 := by
  unfold gradErr
  split
  · have : dRaw (h 0) (h 1) (h 2) 0 0 0 = 0 := by ext <;> simp [dRaw, V3.cross]
    rw [this]
    simp [V3.dot]
  · rfl

/-- Pairing of the gradients of one computation with a direction. -/
def pairHull (r : V3 ℝ × List (V3 ℝ)) (dp : V3 ℝ) (dh : Nat → V3 ℝ) : ℝ :=
  V3.dot r.1 dp + ((List.range r.2.length).map fun v => V3.dot (r.2.getD v 0) (dh v)).sum

/-- **One pair.** -/
theorem hull_deriv {H : Nat} {minArea : ℝ} {p : V3 ℝ} {h : Nat → V3 ℝ} (hr : Regular' H minArea p h) (dp : V3 ℝ) (dh : Nat → V3 ℝ) (g : ℝ) :
    HasDerivAt (fun t => g * hullDist H minArea (line3 p dp t) (fun v => line3 (h v) (dh v) t))
      (pairHull (hullGrad H minArea p h g) dp dh - g * gradErr H minArea p h dh) 0 := by
  rcases hr with ⟨rfl, hr⟩ | ⟨rfl, hr | hr⟩
  · refine hd_congr (pointLine3Backward_deriv (p := p) hr dp (dh 0) (dh 1) g) (fun _ => rfl) ?_
    simp [pairHull, hullGrad, gradErr, List.range_succ]
    ring
  · obtain ⟨h1, h2, h3, h4, h5⟩ := hr
    have hu : UsePlane p (h 0) (h 1) (h 2) minArea := by
      have := (usePlane_open h1 h2 h3 h4 h5 dp (dh 0) (dh 1) (dh 2)).self_of_nhds
      simpa only [line3_zero] using this
    refine hd_congr (pointTri3Backward_deriv h1 h2 h3 h4 h5 dp (dh 0) (dh 1) (dh 2) g) (fun _ => rfl) ?_
    simp [pairHull, hullGrad, gradErr, hu, List.range_succ]
    ring
  · have hu : ¬ UsePlane p (h 0) (h 1) (h 2) minArea := by
      have := (offPlane_open hr.1 dp (dh 0) (dh 1) (dh 2)).self_of_nhds
      simpa only [line3_zero] using this
    refine hd_congr (pointTri3Backward_boundary hr dp (dh 0) (dh 1) (dh 2) g) (fun _ => rfl) ?_
    simp [pairHull, hullGrad, gradErr, hu, List.range_succ, pair4']
    ring

/-- All rows moved along a direction. -/
def moved (P d : Nat → V3 ℝ) (t : ℝ) (k : Nat) : V3 ℝ := line3 (P k) (d k) t

/-- The distance of row `a` of the first and row `b` of the second tensor. -/
def rowDist (H : Nat) (minArea : ℝ) (P hs : Nat → V3 ℝ) (swap : Bool) (a b : Nat) : ℝ :=
  if swap then hullDist H minArea (P b) (hull H hs a) else hullDist H minArea (P a) (hull H hs b)

theorem pair_incr (k : Nat) (v : V3 ℝ) (d : Nat → V3 ℝ) : pair (incr k v) d = V3.dot v (d k) := by
  simp [pair, incr, coord, V3.dot]
  ring

theorem pair_append (l l' : List ((Nat × Nat) × ℝ)) (d : Nat → V3 ℝ) : pair (l ++ l') d = pair l d + pair l' d := by
  simp [pair]

theorem pair_incrs (k : Nat) (l : List (V3 ℝ)) (d : Nat → V3 ℝ) :
    pair (incrs k l) d = ((List.range l.length).map fun v => V3.dot (l.getD v 0) (d (k + v))).sum := by
  induction l generalizing k with
  | nil => simp [incrs, pair]
  | cons v l ih =>
    rw [incrs, pair_append, pair_incr, ih, List.length_cons, List.range_succ_eq_map, List.map_cons, List.sum_cons, List.map_map]
    congr 1
    congr 1
    apply List.map_congr_left
    intro w _
    simp [Nat.add_assoc, Nat.add_comm 1]

theorem pair_item (H : Nat) (minArea : ℝ) (P hs : Nat → V3 ℝ) (it : Item) (dP dH : Nat → V3 ℝ) :
    pair (ptAdds H minArea P hs it) dP + pair (hullAdds H minArea P hs it) dH
      = pairHull (hullGrad H minArea (P it.p) (hull H hs it.t) it.g) (dP it.p) (hull H dH it.t) := by
  rw [ptAdds, hullAdds, pair_incr, pair_incrs]
  rfl

/-- Pairing of the gradient tensors with a direction. -/
def pairGrad (G : (Nat × Nat → ℝ) × (Nat × Nat → ℝ)) (A B : Nat) (dP dH : Nat → V3 ℝ) : ℝ :=
  ∑ k ∈ Finset.range A ×ˢ Finset.range 3, G.1 k * coord (dP k.1) k.2 + ∑ k ∈ Finset.range B ×ˢ Finset.range 3, G.2 k * coord (dH k.1) k.2

theorem pairGrad_scatter {A B : Nat} {l l' : List ((Nat × Nat) × ℝ)} (h : ∀ c ∈ l, c.1.1 < A ∧ c.1.2 < 3) (h' : ∀ c ∈ l', c.1.1 < B ∧ c.1.2 < 3)
    (dP dH : Nat → V3 ℝ) : pairGrad (scatterAdd l, scatterAdd l') A B dP dH = pair l dP + pair l' dH := by
  unfold pairGrad
  rw [sum_scatterAdd l _ (fun c hc => by simpa using h c hc) (fun vc => coord (dP vc.1) vc.2),
    sum_scatterAdd l' _ (fun c hc => by simpa using h' c hc) (fun vc => coord (dH vc.1) vc.2)]
  rfl

/-- The derivative of the distance of rows `a` and `b` along a direction. -/
def pairDeriv (H : Nat) (minArea : ℝ) (P hs dP dH : Nat → V3 ℝ) (swap : Bool) (a b : Nat) : ℝ :=
  pairHull (hullGrad H minArea (P (if swap then b else a)) (hull H hs (if swap then a else b)) 1)
    (dP (if swap then b else a)) (hull H dH (if swap then a else b))
    - gradErr H minArea (P (if swap then b else a)) (hull H hs (if swap then a else b)) (hull H dH (if swap then a else b))

/-- **Point/mesh gradients.** Let `res t` be closest rows for the inputs moved by `t`.  At inputs where every candidate pair is regular and
the candidates at the least distance have the same derivative in the direction, the backward pass is the derivative of the sum of
`g a` times the distance of row `a`, up to the error `gradErr`. -/
theorem backward_deriv {H : Nat} (hH : H = 2 ∨ H = 3) {minArea : ℝ} {P hs dP dH : Nat → V3 ℝ} {swap : Bool} {A nP nH : Nat} {big : ℝ}
    {lo hi : Nat → Nat} {res : ℝ → Nat → ℝ × Nat} (g : Nat → ℝ) (hne : ∀ a < A, lo a < hi a)
    (hres : ∀ a < A, ∀ᶠ t in 𝓝 0, Closest (rowDist H minArea (moved P dP t) (moved hs dH t) swap a) big (lo a) (hi a) (res t a))
    (hbd : ∀ a < A, ∀ b, lo a ≤ b → b < hi a → (if swap then b else a) < nP ∧ (if swap then a else b) < nH)
    (hreg : ∀ a < A, ∀ b, lo a ≤ b → b < hi a →
      Regular' H minArea (P (if swap then b else a)) (hull H hs (if swap then a else b)))
    (htie : ∀ a < A, ∀ b, lo a ≤ b → b < hi a → rowDist H minArea P hs swap a b = (res 0 a).1 →
      pairDeriv H minArea P hs dP dH swap a b = pairDeriv H minArea P hs dP dH swap a (res 0 a).2) :
    HasDerivAt (fun t => ((List.range A).map fun a => g a * (res t a).1).sum)
      (pairGrad (cpuBackward H minArea P hs swap A (fun a => (res 0 a).2) g) nP (nH * H) dP dH
        - ((List.range A).map fun a => g a * gradErr H minArea (P (items swap (fun a => (res 0 a).2) g a).p)
            (hull H hs (items swap (fun a => (res 0 a).2) g a).t) (hull H dH (items swap (fun a => (res 0 a).2) g a).t)).sum) 0 := by
  have hidx : ∀ a < A, lo a ≤ (res 0 a).2 ∧ (res 0 a).2 < hi a := by
    intro a ha
    rcases (hres a ha).self_of_nhds with ⟨h, _⟩ | ⟨h1, h2, _⟩
    · have := hne a ha; omega
    · exact ⟨h1, h2⟩
  have hpA : ∀ a < A, (items swap (fun a => (res 0 a).2) g a).p = (if swap then (res 0 a).2 else a)
      ∧ (items swap (fun a => (res 0 a).2) g a).t = (if swap then a else (res 0 a).2)
      ∧ (items swap (fun a => (res 0 a).2) g a).g = g a := by
    intro a _
    cases swap <;> simp [items]
  unfold cpuBackward
  rw [pairGrad_scatter]
  · rw [pair_flatMap, pair_flatMap]
    have e : ∀ l : List Nat, ∀ f1 f2 f3 : Nat → ℝ, (l.map f1).sum + (l.map f2).sum - (l.map f3).sum = (l.map fun a => f1 a + f2 a - f3 a).sum := by
      intro l f1 f2 f3
      induction l with
      | nil => simp
      | cons a l ih => simp only [List.map_cons, List.sum_cons, ← ih]; ring
    rw [e]
    apply hd_sum
    intro a ha
    rw [List.mem_range] at ha
    obtain ⟨p1, p2, p3⟩ := hpA a ha
    rw [pair_item, p1, p2, p3]
    have hD : ∀ b, lo a ≤ b → b < hi a → ∀ g, HasDerivAt (fun t => g * rowDist H minArea (moved P dP t) (moved hs dH t) swap a b)
        (pairHull (hullGrad H minArea (P (if swap then b else a)) (hull H hs (if swap then a else b)) g)
          (dP (if swap then b else a)) (hull H dH (if swap then a else b))
          - g * gradErr H minArea (P (if swap then b else a)) (hull H hs (if swap then a else b)) (hull H dH (if swap then a else b))) 0 := by
      intro b h1 h2 g
      have := hull_deriv (hreg a ha b h1 h2) (dP (if swap then b else a)) (hull H dH (if swap then a else b)) g
      refine hd_congr this (fun t => ?_) rfl
      cases swap <;> rfl
    have hc := closest_deriv (f := fun b t => rowDist H minArea (moved P dP t) (moved hs dH t) swap a b)
      (D := pairDeriv H minArea P hs dP dH swap a)
      (hne a ha) (fun b h1 h2 => by simpa only [one_mul, pairDeriv] using hD b h1 h2 1) (hres a ha)
      (fun b h1 h2 e => by
        refine htie a ha b h1 h2 ?_
        rw [← e]
        cases swap <;> simp only [rowDist, moved, line3_zero, if_true, Bool.false_eq_true, if_false] <;> congr 1 <;> funext v <;>
          simp [hull, moved, line3_zero])
    refine hd_congr (hc.const_mul (g a)) (fun _ => rfl) ?_
    have u1 := hD (res 0 a).2 (hidx a ha).1 (hidx a ha).2 (g a)
    have u2 := (hD (res 0 a).2 (hidx a ha).1 (hidx a ha).2 1).const_mul (g a)
    simp only [one_mul] at u2
    exact u1.unique u2
  · intro c hc
    obtain ⟨a, ha, hc⟩ := List.mem_flatMap.mp hc
    rw [List.mem_range] at ha
    have h1 := ptAdds_lt hc
    have h2 := (hbd a ha _ (hidx a ha).1 (hidx a ha).2).1
    rw [(hpA a ha).1] at h1
    exact ⟨h1.1 ▸ h2, h1.2⟩
  · intro c hc
    obtain ⟨a, ha, hc⟩ := List.mem_flatMap.mp hc
    rw [List.mem_range] at ha
    have h1 := hullAdds_lt hH hc
    have h2 := (hbd a ha _ (hidx a ha).1 (hidx a ha).2).2
    rw [(hpA a ha).2.1] at h1
    refine ⟨h1.2.1.trans_le ?_, h1.2.2⟩
    nlinarith

/-- **C57 (array gradients).** `PointFaceArrayDistanceBackward` and `PointEdgeArrayDistanceBackward` are the derivative of the table of
distances, up to `gradErr`. -/
theorem array_backward_deriv {H : Nat} (hH : H = 2 ∨ H = 3) {minArea : ℝ} {P hs dP dH : Nat → V3 ℝ} {A B : Nat} (g : Nat → Nat → ℝ)
    (hreg : ∀ p < A, ∀ t < B, Regular' H minArea (P p) (hull H hs t)) :
    HasDerivAt (fun s => ((List.range A).map fun p => ((List.range B).map fun t =>
        g p t * hullDist H minArea (moved P dP s p) (hull H (moved hs dH s) t)).sum).sum)
      (pairGrad (cpuArrayBackward H minArea P hs A B g) A (B * H) dP dH
        - ((List.range A).map fun p => ((List.range B).map fun t =>
            g p t * gradErr H minArea (P p) (hull H hs t) (hull H dH t)).sum).sum) 0 := by
  have e : ∀ l : List Nat, ∀ f1 f2 f3 : Nat → ℝ, (l.map f1).sum + (l.map f2).sum - (l.map f3).sum = (l.map fun a => f1 a + f2 a - f3 a).sum := by
    intro l f1 f2 f3
    induction l with
    | nil => simp
    | cons a l ih => simp only [List.map_cons, List.sum_cons, ← ih]; ring
  unfold cpuArrayBackward
  rw [pairGrad_scatter]
  · rw [pair_flatMap, pair_flatMap, e]
    apply hd_sum
    intro p hp
    rw [pair_flatMap, pair_flatMap, e]
    apply hd_sum
    intro t ht
    rw [pair_item]
    exact hull_deriv (hreg p (List.mem_range.mp hp) t (List.mem_range.mp ht)) (dP p) (hull H dH t) (g p t)
  · intro c hc
    obtain ⟨p, hp, hc⟩ := List.mem_flatMap.mp hc
    obtain ⟨t, ht, hc⟩ := List.mem_flatMap.mp hc
    have := ptAdds_lt hc
    have := List.mem_range.mp hp
    simp only at *
    omega
  · intro c hc
    obtain ⟨p, hp, hc⟩ := List.mem_flatMap.mp hc
    obtain ⟨t, ht, hc⟩ := List.mem_flatMap.mp hc
    obtain ⟨h1, h2, h3⟩ := hullAdds_lt hH hc
    have ht := List.mem_range.mp ht
    simp only at h1 h2
    exact ⟨by nlinarith, h3⟩

/-! ### Packed rows -/

/-- `packed_to_cloud_idx`, `faces_packed_to_mesh_idx`, `edges_packed_to_mesh_idx`: the element of every packed row. -/
def packedIdx (l : List Nat) : List Nat := (List.range l.length).flatMap fun n => List.replicate (l.getD n 0) n

theorem range_split (l : List Nat) :
    List.range l.sum = (List.range l.length).flatMap fun n => (List.range (l.getD n 0)).map fun i => off l n + i := by
  induction l using List.reverseRecOn with
  | nil => rfl
  | append_singleton l x ih =>
    rw [List.sum_append, List.length_append, List.length_singleton, List.range_succ, List.flatMap_append, List.sum_singleton,
      List.range_add, ih]
    congr 1
    · apply flatMap_congr'
      intro n hn
      rw [List.mem_range] at hn
      have e : off (l ++ [x]) n = off l n := by unfold off; rw [List.take_append_of_le_length hn.le]
      rw [e, List.getD_append _ _ _ _ hn]
    · have e : off (l ++ [x]) l.length = l.sum := by unfold off; rw [List.take_left']; rfl
      rw [List.flatMap_singleton, e, List.getD_append_right _ _ _ _ le_rfl]
      simp

theorem exists_elem {l : List Nat} {a : Nat} (h : a < l.sum) : ∃ n, ∃ hn : n < l.length, ∃ i < l[n], a = off l n + i := by
  have : a ∈ List.range l.sum := List.mem_range.mpr h
  rw [range_split, List.mem_flatMap] at this
  obtain ⟨n, hn, ha⟩ := this
  rw [List.mem_range] at hn
  obtain ⟨i, hi, rfl⟩ := List.mem_map.mp ha
  rw [List.mem_range, List.getD_eq_getElem?_getD, List.getElem?_eq_getElem hn, Option.getD_some] at hi
  exact ⟨n, hn, i, hi, rfl⟩

theorem packedIdx_eq (l : List Nat) : packedIdx l = (List.range l.sum).map fun a => (packedIdx l).getD a 0 := by
  have hlen : (packedIdx l).length = l.sum := by
    unfold packedIdx
    rw [← List.length_range (n := l.sum), range_split]
    simp only [List.length_flatMap, List.length_replicate, List.length_map, List.length_range]
  apply List.ext_getElem
  · simp [hlen]
  · intro i h1 h2
    rw [List.getElem_map, List.getElem_range, List.getD_eq_getElem?_getD, List.getElem?_eq_getElem h1, Option.getD_some]

theorem packedIdx_get {l : List Nat} {n i : Nat} (hn : n < l.length) (hi : i < l[n]) : (packedIdx l).getD (off l n + i) 0 = n := by
  have key : ∀ m ≤ l.length, ((List.range m).flatMap fun n => List.replicate (l.getD n 0) n).length = off l m := by
    intro m hm
    induction m with
    | zero => simp [off]
    | succ m ih =>
      rw [List.range_succ, List.flatMap_append, List.length_append, ih (by omega), off_succ (by omega), List.flatMap_singleton,
        List.length_replicate, List.getD_eq_getElem?_getD, List.getElem?_eq_getElem (by omega), Option.getD_some]
  have hsplit : List.range l.length = List.range n ++ (n :: (List.range' (n + 1) (l.length - (n + 1)))) := by
    obtain ⟨k, hk⟩ := Nat.exists_eq_add_of_lt hn
    rw [hk, show n + k + 1 - (n + 1) = k by omega, ← List.range'_succ, List.range_eq_range', List.range_eq_range', Nat.add_assoc,
      ← List.range'_append_1, Nat.zero_add]
  unfold packedIdx
  rw [hsplit, List.flatMap_append, List.flatMap_cons, List.getD_append_right _ _ _ _ (by rw [key n hn.le]; omega), key n hn.le,
    Nat.add_sub_cancel_left, List.getD_append _ _ _ _ (by
      rw [List.length_replicate, List.getD_eq_getElem?_getD, List.getElem?_eq_getElem hn, Option.getD_some]; exact hi)]
  rw [List.getD_replicate]
  rw [List.getD_eq_getElem?_getD, List.getElem?_eq_getElem hn, Option.getD_some]; exact hi

/-! ### The autograd functions -/

/-- The forward result of the CPU for row `a`. -/
def cpuRes (na nb : List Nat) (d : Nat → Nat → ℝ) (big : ℝ) (a : Nat) : ℝ × Nat := (cpuForward na nb d big).getD a (big, 0)

theorem cpuRes_closest {na nb : List Nat} (hl : na.length = nb.length) (hpos : ∀ x ∈ na, 0 < x) {d : Nat → Nat → ℝ} {big : ℝ} {a : Nat}
    (ha : a < na.sum) (hb : ∀ j, off nb ((packedIdx na).getD a 0) ≤ j → j < off nb ((packedIdx na).getD a 0 + 1) → d a j ≤ big) :
    Closest (d a) big (off nb ((packedIdx na).getD a 0)) (off nb ((packedIdx na).getD a 0 + 1)) (cpuRes na nb d big a) := by
  obtain ⟨n, hn, i, hi, rfl⟩ := exists_elem ha
  rw [packedIdx_get hn hi] at hb ⊢
  obtain ⟨r, e, hc, _⟩ := cpu_correct hl hn hi (fun j h _ => hpos _ (List.getElem_mem h)) hb
  rw [cpuRes, List.getD_eq_getElem?_getD, e]
  exact hc

/-- **C57 (gradients).** `_PointFaceDistance`, `_FacePointDistance`, `_PointEdgeDistance` and `_EdgePointDistance` on the CPU, for batches
without empty elements: where the distances are below the largest float, all candidate pairs regular and the candidates at the least
distance have the same derivative (for example a unique closest one), the backward pass is the derivative of the forward pass, up to
`gradErr`. -/
theorem cpu_backward_deriv {H : Nat} (hH : H = 2 ∨ H = 3) {minArea : ℝ} {P hs dP dH : Nat → V3 ℝ} {swap : Bool} {na nb : List Nat} {big : ℝ}
    (hl : na.length = nb.length) (hpos : ∀ x ∈ na, 0 < x) (hpos' : ∀ x ∈ nb, 0 < x) (g : Nat → ℝ)
    (hcand : ∀ n < na.length, ∀ a, off na n ≤ a → a < off na (n + 1) → ∀ b, off nb n ≤ b → b < off nb (n + 1) →
      rowDist H minArea P hs swap a b < big ∧ Regular' H minArea (P (if swap then b else a)) (hull H hs (if swap then a else b)) ∧
      (rowDist H minArea P hs swap a b = (cpuRes na nb (rowDist H minArea P hs swap) big a).1 →
        pairDeriv H minArea P hs dP dH swap a b
          = pairDeriv H minArea P hs dP dH swap a (cpuRes na nb (rowDist H minArea P hs swap) big a).2)) :
    HasDerivAt (fun t => ((List.range na.sum).map fun a =>
        g a * (cpuRes na nb (rowDist H minArea (moved P dP t) (moved hs dH t) swap) big a).1).sum)
      (pairGrad (cpuBackward H minArea P hs swap na.sum (fun a => (cpuRes na nb (rowDist H minArea P hs swap) big a).2) g)
          (if swap then nb.sum else na.sum) ((if swap then na.sum else nb.sum) * H) dP dH
        - ((List.range na.sum).map fun a => g a * gradErr H minArea
            (P (items swap (fun a => (cpuRes na nb (rowDist H minArea P hs swap) big a).2) g a).p)
            (hull H hs (items swap (fun a => (cpuRes na nb (rowDist H minArea P hs swap) big a).2) g a).t)
            (hull H dH (items swap (fun a => (cpuRes na nb (rowDist H minArea P hs swap) big a).2) g a).t)).sum) 0 := by
  have hz : rowDist H minArea (moved P dP 0) (moved hs dH 0) swap = rowDist H minArea P hs swap := by
    have e1 : moved P dP 0 = P := funext fun k => line3_zero _ _
    have e2 : moved hs dH 0 = hs := funext fun k => line3_zero _ _
    rw [e1, e2]
  have hc : ∀ a < na.sum, ∃ n, n < na.length ∧ off na n ≤ a ∧ a < off na (n + 1) ∧ (packedIdx na).getD a 0 = n := by
    intro a ha
    obtain ⟨n, hn, i, hi, rfl⟩ := exists_elem ha
    exact ⟨n, hn, by omega, by rw [off_succ hn]; omega, packedIdx_get hn hi⟩
  have := backward_deriv (H := H) hH (minArea := minArea) (P := P) (hs := hs) (dP := dP) (dH := dH) (swap := swap) (A := na.sum)
    (nP := if swap then nb.sum else na.sum) (nH := if swap then na.sum else nb.sum) (big := big)
    (lo := fun a => off nb ((packedIdx na).getD a 0)) (hi := fun a => off nb ((packedIdx na).getD a 0 + 1))
    (res := fun t a => cpuRes na nb (rowDist H minArea (moved P dP t) (moved hs dH t) swap) big a) g
    (by
      intro a ha
      obtain ⟨n, hn, _, _, e⟩ := hc a ha
      simp only [e]
      rw [off_succ (by omega)]
      have := hpos' _ (List.getElem_mem (hl ▸ hn : n < nb.length))
      omega)
    (by
      intro a ha
      obtain ⟨n, hn, h1, h2, e⟩ := hc a ha
      have hev : ∀ᶠ t in 𝓝 (0 : ℝ), ∀ b ∈ Finset.Ico (off nb n) (off nb (n + 1)),
          rowDist H minArea (moved P dP t) (moved hs dH t) swap a b ≤ big := by
        rw [Filter.eventually_all_finset]
        intro b hb
        rw [Finset.mem_Ico] at hb
        obtain ⟨c1, c2, _⟩ := hcand n hn a h1 h2 b hb.1 hb.2
        have hd := (hull_deriv c2 (dP (if swap then b else a)) (hull H dH (if swap then a else b)) 1).continuousAt
        simp only [one_mul] at hd
        have hd' : ContinuousAt (fun t => rowDist H minArea (moved P dP t) (moved hs dH t) swap a b) 0 := by
          refine hd.congr (Eventually.of_forall fun t => ?_)
          cases swap <;> rfl
        have := hd'.eventually (gt_mem_nhds (a := big) (by simp only [hz]; exact c1))
        filter_upwards [this] with t ht using ht.le
      filter_upwards [hev] with t ht
      exact cpuRes_closest hl hpos ha (by rw [e]; exact fun j j1 j2 => ht j (Finset.mem_Ico.mpr ⟨j1, j2⟩)))
    (by
      intro a ha b b1 b2
      obtain ⟨n, hn, h1, h2, e⟩ := hc a ha
      have := off_le_sum nb ((packedIdx na).getD a 0 + 1)
      cases swap <;> simp only [if_true, Bool.false_eq_true, if_false] <;> omega)
    (by
      intro a ha b b1 b2
      obtain ⟨n, hn, h1, h2, e⟩ := hc a ha
      rw [e] at b1 b2
      exact (hcand n hn a h1 h2 b b1 b2).2.1)
    (by
      intro a ha b b1 b2
      obtain ⟨n, hn, h1, h2, e⟩ := hc a ha
      rw [e] at b1 b2
      simp only [hz]
      exact (hcand n hn a h1 h2 b b1 b2).2.2)
  simp only [hz] at this
  exact this

/-! ### The losses -/

/-- Errors of the losses: different batch sizes (point_mesh_distance.py:283, 353), `max()` of an empty tensor (line 290, 360). -/
inductive LossErr
  | valueError
  | emptyMax
deriving DecidableEq

/-- point_mesh_distance.py:307-312 and 320-325: every distance divided by the size of its element, the sum by the size of the batch. -/
def term (na : List Nat) (dist : Nat → ℝ) : ℝ :=
  ((List.range na.sum).map fun a => dist a * (1 / (na.getD ((packedIdx na).getD a 0) 0 : ℝ))).sum / na.length

/-- `point_mesh_edge_distance` (H = 2) and `point_mesh_face_distance` (H = 3), point_mesh_distance.py:262-398, on the CPU: `np` and `nh` are the
sizes of the clouds and of the meshes (in edges or faces). -/
def lossCpu (H : Nat) (minArea : ℝ) (P hs : Nat → V3 ℝ) (np nh : List Nat) (big : ℝ) : Except LossErr ℝ :=
  if nh.length ≠ np.length then .error .valueError
  else if np = [] then .error .emptyMax
  else .ok (term np (fun a => (cpuRes np nh (rowDist H minArea P hs false) big a).1)
    + term nh (fun a => (cpuRes nh np (rowDist H minArea P hs true) big a).1))

/-- Mean of the distances of the rows of element `n`. -/
def meanDist (na : List Nat) (dist : Nat → ℝ) (n : Nat) : ℝ :=
  ((List.range (na.getD n 0)).map fun i => dist (off na n + i)).sum / (na.getD n 0 : ℝ)

theorem term_eq (na : List Nat) (dist : Nat → ℝ) :
    term na dist = ((List.range na.length).map (meanDist na dist)).sum / na.length := by
  unfold term
  congr 1
  rw [range_split, List.map_flatMap, List.flatMap_def, List.sum_flatten, List.map_map]
  congr 1
  apply List.map_congr_left
  intro n hn
  rw [List.mem_range] at hn
  simp only [Function.comp_apply]
  unfold meanDist
  rw [List.map_map]
  have e : ∀ i ∈ List.range (na.getD n 0),
      ((fun a => dist a * (1 / (na.getD ((packedIdx na).getD a 0) 0 : ℝ))) ∘ fun i => off na n + i) i
        = dist (off na n + i) * (1 / (na.getD n 0 : ℝ)) := by
    intro i hi
    rw [List.mem_range, List.getD_eq_getElem?_getD, List.getElem?_eq_getElem hn, Option.getD_some] at hi
    simp only [Function.comp, packedIdx_get hn hi]
  rw [List.map_congr_left e, List.sum_map_mul_right, mul_one_div]

/-- **C57 (losses).** For batches without empty elements the loss is the average over the batch of the mean distance of the points to the
closest hull of their mesh plus the mean distance of the hulls to the closest point of their cloud. -/
theorem loss_eq {H : Nat} {minArea : ℝ} {P hs : Nat → V3 ℝ} {np nh : List Nat} {big : ℝ} (hl : np.length = nh.length) (hne : np ≠ [])
    (hp : ∀ x ∈ np, 0 < x) (hh : ∀ x ∈ nh, 0 < x) (hb : ∀ p t, hullDist H minArea (P p) (hull H hs t) ≤ big) :
    ∃ dP dH : Nat → ℝ,
      lossCpu H minArea P hs np nh big
        = .ok (((List.range np.length).map fun n => meanDist np dP n + meanDist nh dH n).sum / np.length)
      ∧ (∀ n < np.length, ∀ a, off np n ≤ a → a < off np (n + 1) →
          (∃ t, off nh n ≤ t ∧ t < off nh (n + 1) ∧ dP a = hullDist H minArea (P a) (hull H hs t)) ∧
          ∀ t, off nh n ≤ t → t < off nh (n + 1) → dP a ≤ hullDist H minArea (P a) (hull H hs t))
      ∧ (∀ n < nh.length, ∀ t, off nh n ≤ t → t < off nh (n + 1) →
          (∃ a, off np n ≤ a ∧ a < off np (n + 1) ∧ dH t = hullDist H minArea (P a) (hull H hs t)) ∧
          ∀ a, off np n ≤ a → a < off np (n + 1) → dH t ≤ hullDist H minArea (P a) (hull H hs t)) := by
  have key : ∀ {na nb : List Nat} (swap : Bool), na.length = nb.length → (∀ x ∈ na, 0 < x) → (∀ x ∈ nb, 0 < x) → ∀ n < na.length, ∀ a,
      off na n ≤ a → a < off na (n + 1) →
      (∃ b, off nb n ≤ b ∧ b < off nb (n + 1) ∧ (cpuRes na nb (rowDist H minArea P hs swap) big a).1 = rowDist H minArea P hs swap a b) ∧
        ∀ b, off nb n ≤ b → b < off nb (n + 1) → (cpuRes na nb (rowDist H minArea P hs swap) big a).1 ≤ rowDist H minArea P hs swap a b := by
    intro na nb swap hl h1 h2 n hn a ha ha'
    have ho := off_succ hn
    have hi : a - off na n < na[n] := by omega
    have e := packedIdx_get hn hi
    rw [show off na n + (a - off na n) = a by omega] at e
    have hle := off_le_sum na (n + 1)
    have hc := cpuRes_closest (d := rowDist H minArea P hs swap) (big := big) hl h1 (a := a) (by omega)
      (fun j _ _ => by cases swap <;> exact hb _ _)
    rw [e] at hc
    have hpos : 0 < nb[n] := h2 _ (List.getElem_mem _)
    have hs' := off_succ (l := nb) (n := n) (by omega)
    rcases hc with ⟨h, _⟩ | ⟨r1, r2, r3, r4⟩
    · omega
    · exact ⟨⟨_, r1, r2, r3⟩, fun b b1 b2 => r3 ▸ r4 b b1 b2⟩
  refine ⟨fun a => (cpuRes np nh (rowDist H minArea P hs false) big a).1, fun a => (cpuRes nh np (rowDist H minArea P hs true) big a).1,
    ?_, key false hl hp hh, key true hl.symm hh hp⟩
  unfold lossCpu
  rw [if_neg (by rw [hl]; simp), if_neg hne, term_eq, term_eq, hl, ← add_div]
  congr 2
  rw [← List.sum_map_add]

/-! ### Empty elements -/

/-- **A mesh without edges: constant distance, non-zero gradient.** Two clouds of one point each, the second mesh has no edges: its
point gets the largest float and index 0, and the backward pass adds the gradient of its distance to the edge of the first mesh. -/
theorem empty_target_grad {big : ℝ} (P hs : Nat → V3 ℝ) :
    cpuForward [1, 1] [1, 0] (rowDist 2 1 P hs false) big
      = [(scanCpu (rowDist 2 1 P hs false 0) big [0]), (big, 0)] := by
  rfl

theorem empty_target_witness :
    (cpuBackward 2 1 (fun k => ⟨0, 0, k + 1⟩) (fun k => ⟨k, 0, 0⟩) false 2 (fun _ => 0) (fun a => a)).1 (1, 2) = 4 := by
  have h : ¬ ((1 : ℝ) < kEps) := by simp only [kEps]; norm_num
  simp [cpuBackward, ptAdds, items, hullGrad, hull, pointLine3Backward, incr, List.range_succ, scatterAdd, V3.dot, h, addAt]
  norm_num

/-! ### Examples -/

/-- A point above a triangle. -/
example : Regular' 3 (5 / 10 ^ 3) ⟨1, 1, 5⟩ (hull 3 (fun k => [⟨0, 0, 0⟩, ⟨4, 0, 0⟩, ⟨0, 3, 0⟩].getD k 0) 0) := by
  right
  refine ⟨rfl, Or.inl ?_⟩
  have e : V3.normSq (rawNormal ⟨0, 0, 0⟩ ⟨4, 0, 0⟩ (⟨0, 3, 0⟩ : V3 ℝ)) = 144 := by
    simp [rawNormal, V3.normSq, V3.dot, V3.cross]; norm_num
  simp only [hull, Nat.zero_mul, Nat.zero_add, List.getD_cons_zero, List.getD_cons_succ]
  refine ⟨?_, ?_, ?_, ?_, ?_⟩
  · rw [exRaw]; simp only [kEps]; norm_num
  · rw [exRaw]; norm_num
  · rw [exFoot]; norm_num
  · rw [exFoot]; norm_num
  · rw [exFoot, e]; simp only [kEps]; norm_num

/-- A point whose closest point is a vertex: two sides attain the minimum, with the same gradient. -/
example : Boundary ⟨-1, -1, 0⟩ ⟨0, 0, 0⟩ ⟨4, 0, 0⟩ ⟨0, 3, 0⟩ (5 / 10 ^ 3) := by
  have hk : (kEps : ℝ) = 1 / 10 ^ 8 := by simp only [kEps]
  have l0 : pointLine3 (⟨-1, -1, 0⟩ : V3 ℝ) ⟨0, 0, 0⟩ ⟨4, 0, 0⟩ = 2 := by
    norm_num [pointLine3, V3.dot, V3.normSq, hk, clamp01, max_def, min_def]
  have l1 : pointLine3 (⟨-1, -1, 0⟩ : V3 ℝ) ⟨0, 0, 0⟩ ⟨0, 3, 0⟩ = 2 := by
    norm_num [pointLine3, V3.dot, V3.normSq, hk, clamp01, max_def, min_def]
  have l2 : 2 < pointLine3 (⟨-1, -1, 0⟩ : V3 ℝ) ⟨4, 0, 0⟩ ⟨0, 3, 0⟩ := by
    norm_num [pointLine3, V3.dot, V3.normSq, hk, clamp01, max_def, min_def]
  have hg : ∀ g, sideGrad (⟨-1, -1, 0⟩ : V3 ℝ) ⟨0, 0, 0⟩ ⟨4, 0, 0⟩ ⟨0, 3, 0⟩ g 0
      = sideGrad (⟨-1, -1, 0⟩ : V3 ℝ) ⟨0, 0, 0⟩ ⟨4, 0, 0⟩ ⟨0, 3, 0⟩ g 1 := by
    intro g
    norm_num [sideGrad, pointLine3Backward, V3.dot, V3.normSq, hk, clamp01, V3.ext_iff]
  refine ⟨Or.inr ⟨?_, ?_, Or.inl ?_⟩, ?_, ?_, ?_, ?_⟩
  · rw [exRaw, hk]; norm_num
  · rw [exRaw]; norm_num
  · rw [exFoot]; norm_num
  · simp [V3.dot, hk]; norm_num
  · simp [V3.dot, hk]; norm_num
  · simp [V3.dot, hk]; norm_num
  · intro i hi j hj hmin hij g
    have h0 := hmin 0 (by omega)
    interval_cases i <;> interval_cases j <;> simp only [side] at h0 hij <;> first | rfl | exact hg g | exact (hg g).symm | (exfalso; linarith)

/-- Gradient of a batch with one point and one edge. -/
example : HasDerivAt (fun t => (1 : ℝ) * (cpuRes [1] [1]
      (rowDist 2 1 (moved (fun _ => ⟨0, 0, 1⟩) (fun _ => ⟨0, 0, 1⟩) t) (moved (fun k => ⟨k, 0, 0⟩) (fun _ => 0) t) false) 100 0).1) 2 0 := by
  have hres : (cpuRes [1] [1] (rowDist 2 1 (fun _ => ⟨0, 0, 1⟩) (fun k => ⟨(k : ℝ), 0, 0⟩) false) 100 0).2 = 0 := by
    change (if _ ≤ _ then _ else _ : ℝ × Nat).2 = 0
    split <;> rfl
  have h := cpu_backward_deriv (H := 2) (Or.inl rfl) (minArea := 1) (P := fun _ => ⟨0, 0, 1⟩) (hs := fun k => ⟨k, 0, 0⟩) (dP := fun _ => ⟨0, 0, 1⟩)
    (dH := fun _ => 0) (swap := false) (na := [1]) (nb := [1]) (big := 100) rfl (by simp) (by simp) (fun _ => 1) (by
      intro n hn a h1 h2 b h3 h4
      simp only [List.length_singleton, Nat.lt_one_iff] at hn
      subst hn
      simp only [off, List.take_succ_cons, List.take_zero, List.sum_nil, List.sum_cons] at h2 h4
      obtain rfl : a = 0 := by omega
      obtain rfl : b = 0 := by omega
      refine ⟨?_, Or.inl ⟨rfl, ?_⟩, fun _ => by rw [hres]⟩
      · norm_num [rowDist, hullDist, hull, pointLine3, V3.dot, V3.normSq, kEps, clamp01, max_def, min_def]
      · norm_num [hull, V3.dot, kEps])
  refine hd_congr h (fun t => by simp [List.range_succ]) ?_
  simp only [List.sum_singleton, List.range_one, List.map_singleton, items, Bool.false_eq_true, if_false, hres]
  rw [gradErr, if_neg (by simp)]
  unfold cpuBackward
  rw [pairGrad_scatter]
  · norm_num [pair, ptAdds, hullAdds, items, incr, incrs, hullGrad, hull, pointLine3Backward, coord, V3.dot, kEps, clamp01, hres, List.range_succ]
  · intro c hc
    norm_num [ptAdds, items, incr, List.range_succ] at hc
    rcases hc with rfl | rfl | rfl <;> simp
  · intro c hc
    obtain ⟨a, ha, hc⟩ := List.mem_flatMap.mp hc
    obtain rfl : a = 0 := by simpa using ha
    have := hullAdds_lt (Or.inl rfl) hc
    simp only [items, hres] at this
    simpa using this

end

end P3D.PointMesh
