/-
Normals and local frames of point clouds (`pytorch3d/ops/points_normals.py`,
`pytorch3d/ops/utils.py:165-207`), in exact real arithmetic.

The eigenvector routine is a parameter: `symeig3x3` (module `SymEig`) by default,
`torch.linalg.eigh` otherwise.  So is the choice that `knn_points` makes among the nearest neighbours;
`Knn.Nearest` (C14) says which choices there are.  The rows of padding points are not modelled.
-/
import Verif.SymEig
import Verif.KnnProps
import Mathlib.Data.Fin.Tuple.Sort
import Mathlib.Analysis.InnerProductSpace.PiL2
import Mathlib.Algebra.BigOperators.Group.List.Basic
import Mathlib.Algebra.Order.BigOperators.Group.List
import Mathlib.Tactic.LinearCombination

set_option linter.unusedSectionVars false

namespace P3D.Normals

open Real P3D.SymEig

noncomputable section

abbrev Cols := V3 ℝ × V3 ℝ × V3 ℝ

/-- The exception that is raised. -/
inductive Err | value
  deriving DecidableEq, Repr

/-- `utils.py:198-199` the mean of a neighbourhood. -/
def meanOf (nb : List (V3 ℝ)) : V3 ℝ := (1 / (nb.length : ℝ)) • nb.sum

/-- `utils.py:201-203` the outer product of one difference with itself. -/
def outer (d : V3 ℝ) : M3 ℝ :=
  ⟨d.x * d.x, d.x * d.y, d.x * d.z, d.y * d.x, d.y * d.y, d.y * d.z, d.z * d.x, d.z * d.y, d.z * d.z⟩

/-- Sum of matrices. -/
def sumM (l : List (M3 ℝ)) : M3 ℝ := l.foldr (· + ·) 0

/-- `utils.py:198-205` the covariance of a neighbourhood. -/
def cov (nb : List (V3 ℝ)) : M3 ℝ :=
  (1 / (nb.length : ℝ)) • sumM (nb.map fun x => outer (x - meanOf nb))

/-- `points_normals.py:190-198` how many neighbours lie on the positive side of `v`. -/
def posCount (p : V3 ℝ) (nb : List (V3 ℝ)) (v : V3 ℝ) : Nat :=
  (nb.filter fun x => decide (0 < V3.dot v (x - p))).length

/-- `points_normals.py:182-202` `_disambiguate_vector_directions`. -/
def disamb (p : V3 ℝ) (nb : List (V3 ℝ)) (v : V3 ℝ) : V3 ℝ :=
  let flip : ℝ := if (posCount p nb v : ℝ) < 0.5 * nb.length then 1 else 0
  (1 - 2 * flip) • v

/-- `points_normals.py:150-179` the curvatures and the frame of one point. -/
def frame (eig : M3 ℝ → V3 ℝ × Cols) (disambiguate : Bool) (p : V3 ℝ) (nb : List (V3 ℝ)) : V3 ℝ × Cols :=
  let e := eig (cov nb)
  if disambiguate then
    let n := disamb p nb e.2.1
    let z := disamb p nb e.2.2.2
    (e.1, (n, V3.cross n z, z))
  else e

/-- A padded cloud and its number of points (`convert_pointclouds_to_tensor`, `utils.py:133-154`). -/
structure Cloud where
  padded : List (V3 ℝ)
  num : Nat

/-- `points_normals.py:138-139` `points_centered`. -/
def centred (c : Cloud) : List (V3 ℝ) :=
  c.padded.map fun x => x - (1 / (c.num : ℝ)) • c.padded.sum

/-- The neighbours of point `i`: what `knn_points` picks, `utils.py:190-197`. -/
def neighbours (knn : List (V3 ℝ) → Nat → Nat → List Nat) (K : Nat) (pts : List (V3 ℝ)) (i : Nat) : List (V3 ℝ) :=
  (knn pts K i).filterMap fun j => pts[j]?

/-- `points_normals.py:67-179` for the points of one cloud. -/
def cloudFrames (eig : M3 ℝ → V3 ℝ × Cols) (knn : List (V3 ℝ) → Nat → Nat → List Nat) (disambiguate : Bool)
    (K : Nat) (c : Cloud) : List (V3 ℝ × Cols) :=
  let pts := (centred c).take c.num
  pts.zipIdx.map fun e => frame eig disambiguate e.1 (neighbours knn K pts e.2)

/-- `points_normals.py:129-133` and the batch. -/
def estimateFrames (eig : M3 ℝ → V3 ℝ × Cols) (knn : List (V3 ℝ) → Nat → Nat → List Nat) (disambiguate : Bool)
    (K : Nat) (cs : List Cloud) : Except Err (List (List (V3 ℝ × Cols))) :=
  if cs.any fun c => decide (c.num ≤ K) then .error .value
  else .ok (cs.map (cloudFrames eig knn disambiguate K))

/-- `points_normals.py:21-64` `estimate_pointcloud_normals`. -/
def estimateNormals (eig : M3 ℝ → V3 ℝ × Cols) (knn : List (V3 ℝ) → Nat → Nat → List Nat) (disambiguate : Bool)
    (K : Nat) (cs : List Cloud) : Except Err (List (List (V3 ℝ))) :=
  (estimateFrames eig knn disambiguate K cs).map (List.map (List.map fun f => f.2.1))

/-! ## Specification -/

/-- What `torch.linalg.eigh` promises: ascending eigenvalues and orthonormal eigenvectors. -/
structure IsEigh (A : M3 ℝ) (e : V3 ℝ × Cols) : Prop where
  ortho : Ortho e.2
  lo : e.1.x ≤ e.1.y
  hi : e.1.y ≤ e.1.z
  v0 : A.mulVec e.2.1 = e.1.x • e.2.1
  v1 : A.mulVec e.2.2.1 = e.1.y • e.2.2.1
  v2 : A.mulVec e.2.2.2 = e.1.z • e.2.2.2

/-- The mean squared distance of the neighbours to the plane with normal `v` through their mean. -/
def planeError (nb : List (V3 ℝ)) (v : V3 ℝ) : ℝ :=
  (nb.map fun x => V3.dot v (x - meanOf nb) ^ 2).sum / nb.length

/-! ## Covariance -/

theorem mulVec_sumM (l : List (M3 ℝ)) (v : V3 ℝ) : V3.dot v ((sumM l).mulVec v) = (l.map fun m => V3.dot v (m.mulVec v)).sum := by
  induction l with
  | nil => simp [sumM, M3.mulVec, M3.zero_def, V3.dot]
  | cons m l ih =>
    have : sumM (m :: l) = m + sumM l := rfl
    rw [this, List.map_cons, List.sum_cons, ← ih]
    simp only [M3.add_def, M3.mulVec, V3.dot]; ring

theorem outer_quad (d v : V3 ℝ) : V3.dot v ((outer d).mulVec v) = V3.dot v d ^ 2 := by
  simp only [outer, M3.mulVec, V3.dot]; ring

/-- **Covariance**: the quadratic form of the matrix is the plane error. -/
theorem cov_quad (nb : List (V3 ℝ)) (v : V3 ℝ) : V3.dot v ((cov nb).mulVec v) = planeError nb v := by
  have h : V3.dot v ((cov nb).mulVec v) = (1 / (nb.length : ℝ)) *
      V3.dot v ((sumM (nb.map fun x => outer (x - meanOf nb))).mulVec v) := by
    simp only [cov, M3.smul_def, M3.mulVec, V3.dot]; ring
  rw [h, mulVec_sumM, List.map_map, planeError]
  simp only [Function.comp_def, outer_quad]
  ring

theorem sumM_sym (l : List (M3 ℝ)) (h : ∀ m ∈ l, Sym m) : Sym (sumM l) := by
  induction l with
  | nil => exact ⟨rfl, rfl, rfl⟩
  | cons m l ih =>
    obtain ⟨a, b, c⟩ := h m (by simp)
    obtain ⟨a', b', c'⟩ := ih fun x hx => h x (by simp [hx])
    have : sumM (m :: l) = m + sumM l := rfl
    rw [this]
    simp only [SymEig.Sym, M3.add_def, a, b, c, a', b', c', and_self]

theorem cov_sym (nb : List (V3 ℝ)) : Sym (cov nb) := by
  have h := sumM_sym (nb.map fun x => outer (x - meanOf nb)) (by
    intro m hm
    obtain ⟨x, -, rfl⟩ := List.mem_map.mp hm
    simp only [SymEig.Sym, outer]
    exact ⟨mul_comm _ _, mul_comm _ _, mul_comm _ _⟩)
  obtain ⟨a, b, c⟩ := h
  simp only [cov, SymEig.Sym, M3.smul_def, a, b, c, and_self]

theorem planeError_nonneg (nb : List (V3 ℝ)) (v : V3 ℝ) : 0 ≤ planeError nb v := by
  unfold planeError
  refine div_nonneg (List.sum_nonneg ?_) (Nat.cast_nonneg _)
  intro y hy
  obtain ⟨x, -, rfl⟩ := List.mem_map.mp hy
  exact sq_nonneg _

/-! ## Orthonormal columns -/

theorem complete {c : Cols} (h : Ortho c) (v : V3 ℝ) :
    V3.dot v c.1 • c.1 + V3.dot v c.2.1 • c.2.1 + V3.dot v c.2.2 • c.2.2 = v := by
  obtain ⟨h0, h1, h2, h01, h02, h12⟩ := h
  obtain ⟨a, b, d⟩ := c
  simp only [V3.normSq, V3.dot] at *
  have hM : (!![a.x, a.y, a.z; b.x, b.y, b.z; d.x, d.y, d.z] : Matrix (Fin 3) (Fin 3) ℝ) *
      !![a.x, b.x, d.x; a.y, b.y, d.y; a.z, b.z, d.z] = 1 := by
    ext i j
    fin_cases i <;> fin_cases j <;> simp [Matrix.mul_apply, Fin.sum_univ_three] <;> linarith
  have hM' := mul_eq_one_comm.mp hM
  have e : ∀ i j, (!![a.x, b.x, d.x; a.y, b.y, d.y; a.z, b.z, d.z] *
      !![a.x, a.y, a.z; b.x, b.y, b.z; d.x, d.y, d.z] : Matrix (Fin 3) (Fin 3) ℝ) i j = (1 : Matrix (Fin 3) (Fin 3) ℝ) i j :=
    fun i j => congrFun (congrFun hM' i) j
  have e00 := e 0 0
  have e01 := e 0 1
  have e02 := e 0 2
  have e11 := e 1 1
  have e12 := e 1 2
  have e22 := e 2 2
  simp [Matrix.mul_apply, Fin.sum_univ_three] at e00 e01 e02 e11 e12 e22
  ext <;> simp
  · linear_combination v.x * e00 + v.y * e01 + v.z * e02
  · linear_combination v.x * e01 + v.y * e11 + v.z * e12
  · linear_combination v.x * e02 + v.y * e12 + v.z * e22

theorem sym_dot {A : M3 ℝ} (hs : Sym A) (v w : V3 ℝ) : V3.dot v (A.mulVec w) = V3.dot (A.mulVec v) w := by
  obtain ⟨a, b, c⟩ := hs
  simp only [M3.mulVec, V3.dot, a, b, c]; ring

/-- The quadratic form in the coordinates of the eigenvectors. -/
theorem quad_eig {A : M3 ℝ} (hs : Sym A) {e : V3 ℝ × Cols} (h : IsEigh A e) (v : V3 ℝ) :
    V3.dot v (A.mulVec v) = e.1.x * V3.dot v e.2.1 ^ 2 + e.1.y * V3.dot v e.2.2.1 ^ 2 + e.1.z * V3.dot v e.2.2.2 ^ 2 := by
  have key : ∀ c : V3 ℝ, ∀ l : ℝ, A.mulVec c = l • c → V3.dot c (A.mulVec v) = l * V3.dot v c := by
    intro c l hc
    rw [sym_dot hs, hc, V3.smul_dot, V3.dot_comm]
  have hv := complete h.ortho v
  calc V3.dot v (A.mulVec v)
      = V3.dot (V3.dot v e.2.1 • e.2.1 + V3.dot v e.2.2.1 • e.2.2.1 + V3.dot v e.2.2.2 • e.2.2.2) (A.mulVec v) := by rw [hv]
    _ = _ := by
        rw [V3.add_dot, V3.add_dot, V3.smul_dot, V3.smul_dot, V3.smul_dot, key _ _ h.v0, key _ _ h.v1, key _ _ h.v2]
        ring

theorem parseval {c : Cols} (h : Ortho c) (v : V3 ℝ) :
    V3.normSq v = V3.dot v c.1 ^ 2 + V3.dot v c.2.1 ^ 2 + V3.dot v c.2.2 ^ 2 := by
  have hv := complete h v
  calc V3.normSq v = V3.dot v (V3.dot v c.1 • c.1 + V3.dot v c.2.1 • c.2.1 + V3.dot v c.2.2 • c.2.2) := by rw [hv]; rfl
    _ = _ := by rw [V3.dot_add, V3.dot_add, V3.dot_smul, V3.dot_smul, V3.dot_smul]; ring

/-! ## Disambiguation -/

/-- The result is the vector or its opposite. -/
theorem disamb_cases (p : V3 ℝ) (nb : List (V3 ℝ)) (v : V3 ℝ) :
    disamb p nb v = if 2 * posCount p nb v < nb.length then -v else v := by
  have h : ((posCount p nb v : ℝ) < 0.5 * nb.length) ↔ 2 * posCount p nb v < nb.length := by
    rw [← Nat.cast_lt (α := ℝ)]; push_cast
    constructor <;> intro h <;> linarith
  unfold disamb
  by_cases hc : 2 * posCount p nb v < nb.length
  · rw [if_pos hc, if_pos (h.mpr hc)]
    ext <;> simp <;> ring
  · rw [if_neg hc, if_neg (fun h' => hc (h.mp h'))]
    ext <;> simp

theorem disamb_ortho {p : V3 ℝ} {nb : List (V3 ℝ)} {a b : V3 ℝ} (ha : V3.normSq a = 1) (hb : V3.normSq b = 1)
    (hab : V3.dot a b = 0) : V3.normSq (disamb p nb a) = 1 ∧ V3.normSq (disamb p nb b) = 1 ∧
      V3.dot (disamb p nb a) (disamb p nb b) = 0 := by
  rw [disamb_cases, disamb_cases]
  simp only [V3.normSq, V3.dot] at *
  split <;> split <;> (try simp only [V3.neg_x, V3.neg_y, V3.neg_z]) <;> refine ⟨?_, ?_, ?_⟩ <;> linarith

/-- Neighbours strictly behind the plane of `v` through the point. -/
def negCount (p : V3 ℝ) (nb : List (V3 ℝ)) (v : V3 ℝ) : Nat :=
  (nb.filter fun x => decide (V3.dot v (x - p) < 0)).length

theorem posCount_neg (p : V3 ℝ) (nb : List (V3 ℝ)) (v : V3 ℝ) : posCount p nb (-v) = negCount p nb v := by
  unfold posCount negCount
  congr 2
  funext x
  have : V3.dot (-v) (x - p) = -V3.dot v (x - p) := by simp only [V3.dot, V3.neg_x, V3.neg_y, V3.neg_z]; ring
  simp only [this, neg_pos]

/-- **Orientation.** The direction that is returned does not depend on the sign the eigenvector routine
happened to pick exactly when one, and only one, of the two sides holds half of the neighbours. -/
theorem disamb_sign {p : V3 ℝ} {nb : List (V3 ℝ)} {v : V3 ℝ} (hv : v ≠ 0) :
    disamb p nb (-v) = disamb p nb v ↔
      ((2 * posCount p nb v < nb.length) ↔ ¬ (2 * negCount p nb v < nb.length)) := by
  have hne : -v ≠ v := by
    intro h
    apply hv
    have hx := congrArg V3.x h; have hy := congrArg V3.y h; have hz := congrArg V3.z h
    simp only [V3.neg_x, V3.neg_y, V3.neg_z] at hx hy hz
    ext <;> simp <;> linarith
  rw [disamb_cases, disamb_cases, posCount_neg]
  by_cases h1 : 2 * posCount p nb v < nb.length <;> by_cases h2 : 2 * negCount p nb v < nb.length <;>
    simp only [h1, h2, if_true, if_false, neg_neg, iff_true, iff_false, not_true_eq_false, not_false_eq_true]
  · exact fun h => hne h.symm
  · exact hne

/-- At least half of the neighbours lie in front of the plane, or fewer than half lie behind it. -/
theorem disamb_side (p : V3 ℝ) (nb : List (V3 ℝ)) (v : V3 ℝ) :
    nb.length ≤ 2 * posCount p nb (disamb p nb v) ∨ 2 * negCount p nb (disamb p nb v) < nb.length := by
  rw [disamb_cases]
  split
  · right
    rename_i h
    rw [← posCount_neg, neg_neg]; exact h
  · left; omega

/-! ## Frames -/

/-- **Frames.** With disambiguation the three columns are orthonormal and the frame is left-handed,
always: `(n, n × z, z)`. -/
theorem frame_disamb {eig : M3 ℝ → V3 ℝ × Cols} {nb : List (V3 ℝ)} (p : V3 ℝ) (h : Ortho (eig (cov nb)).2) :
    Ortho (frame eig true p nb).2 ∧ colDet (frame eig true p nb).2 = -1 := by
  obtain ⟨hn, hz, hd⟩ := disamb_ortho (p := p) (nb := nb) h.n0 h.n2 h.d02
  simp only [frame, if_true]
  revert hn hz hd
  generalize disamb p nb (eig (cov nb)).2.1 = n
  generalize disamb p nb (eig (cov nb)).2.2.2 = z
  intro hn hz hd
  have hc : V3.normSq (V3.cross n z) = 1 := by
    simp only [V3.normSq, V3.dot, V3.cross] at *
    linear_combination (n.x * n.x + n.y * n.y + n.z * n.z) * hz + hn - (n.x * z.x + n.y * z.y + n.z * z.z) * hd
  refine ⟨⟨hn, hc, hz, V3.dot_cross_left _ _, hd, ?_⟩, ?_⟩
  · rw [V3.dot_comm]; exact V3.dot_cross_right _ _
  · simp only [colDet, V3.normSq, V3.dot, V3.cross] at *
    linear_combination (-(n.x * n.x + n.y * n.y + n.z * n.z)) * hz - hn + (n.x * z.x + n.y * z.y + n.z * z.z) * hd

/-- The default routine meets the hypothesis for every neighbourhood. -/
theorem frame_symeig (p : V3 ℝ) (nb : List (V3 ℝ)) :
    Ortho (frame symeig3x3 true p nb).2 ∧ colDet (frame symeig3x3 true p nb).2 = -1 :=
  frame_disamb p (eigvecs_ortho (by norm_num [epsF]) _).1

/-- **Normals.** With an exact eigenvector routine the normal is a unit vector that minimises the plane
error, and the error is the first curvature; the last column maximises it. -/
theorem normal_min {eig : M3 ℝ → V3 ℝ × Cols} {nb : List (V3 ℝ)} (p : V3 ℝ) (d : Bool) (h : IsEigh (cov nb) (eig (cov nb)))
    {v : V3 ℝ} (hv : V3.normSq v = 1) :
    planeError nb (frame eig d p nb).2.1 ≤ planeError nb v ∧ planeError nb v ≤ planeError nb (frame eig d p nb).2.2.2 ∧
      planeError nb (frame eig d p nb).2.1 = (frame eig d p nb).1.x ∧
      planeError nb (frame eig d p nb).2.2.2 = (frame eig d p nb).1.z := by
  have hneg : ∀ w, planeError nb (-w) = planeError nb w := by
    intro w
    rw [← cov_quad, ← cov_quad]
    simp only [M3.mulVec, V3.dot, V3.neg_x, V3.neg_y, V3.neg_z]; ring
  have hdis : ∀ w, planeError nb (disamb p nb w) = planeError nb w := by
    intro w; rw [disamb_cases]; split
    · exact hneg w
    · rfl
  have e0 : planeError nb (eig (cov nb)).2.1 = (eig (cov nb)).1.x := by
    rw [← cov_quad, h.v0, V3.dot_smul]
    have := h.ortho.n0
    rw [V3.normSq] at this
    rw [this, mul_one]
  have e2 : planeError nb (eig (cov nb)).2.2.2 = (eig (cov nb)).1.z := by
    rw [← cov_quad, h.v2, V3.dot_smul]
    have := h.ortho.n2
    rw [V3.normSq] at this
    rw [this, mul_one]
  have f0 : planeError nb (frame eig d p nb).2.1 = (eig (cov nb)).1.x := by
    rw [← e0]; unfold frame; cases d
    · rfl
    · exact hdis _
  have f2 : planeError nb (frame eig d p nb).2.2.2 = (eig (cov nb)).1.z := by
    rw [← e2]; unfold frame; cases d
    · rfl
    · exact hdis _
  have f1 : (frame eig d p nb).1 = (eig (cov nb)).1 := by unfold frame; cases d <;> rfl
  have hq := quad_eig (cov_sym nb) h v
  have hp := parseval h.ortho v
  rw [hv] at hp
  have hlo := h.lo
  have hhi := h.hi
  rw [f0, f2, f1, ← cov_quad, hq]
  have hx := sq_nonneg (V3.dot v (eig (cov nb)).2.1)
  have hy := sq_nonneg (V3.dot v (eig (cov nb)).2.2.1)
  have hz := sq_nonneg (V3.dot v (eig (cov nb)).2.2.2)
  generalize V3.dot v (eig (cov nb)).2.1 ^ 2 = x at *
  generalize V3.dot v (eig (cov nb)).2.2.1 ^ 2 = y at *
  generalize V3.dot v (eig (cov nb)).2.2.2 ^ 2 = z at *
  have hx' : x = 1 - y - z := by linarith
  refine ⟨?_, ?_, rfl, rfl⟩
  · rw [hx']
    nlinarith [mul_nonneg hy (sub_nonneg.mpr hlo), mul_nonneg hz (sub_nonneg.mpr (hlo.trans hhi))]
  · have hz' : z = 1 - x - y := by linarith
    rw [hz']
    nlinarith [mul_nonneg hy (sub_nonneg.mpr hhi), mul_nonneg hx (sub_nonneg.mpr (hlo.trans hhi))]

/-! ## Clouds -/

/-- **Errors**: exactly when some cloud does not have more points than the neighbourhood size. -/
theorem estimate_error (eig : M3 ℝ → V3 ℝ × Cols) (knn : List (V3 ℝ) → Nat → Nat → List Nat) (d : Bool) (K : Nat) (cs : List Cloud) :
    (∃ e, estimateNormals eig knn d K cs = .error e) ↔ ∃ c ∈ cs, c.num ≤ K := by
  unfold estimateNormals estimateFrames
  by_cases h : cs.any fun c => decide (c.num ≤ K)
  · rw [if_pos h]
    simp only [List.any_eq_true, decide_eq_true_eq] at h
    exact ⟨fun _ => h, fun _ => ⟨.value, rfl⟩⟩
  · rw [if_neg h]
    simp only [List.any_eq_true, decide_eq_true_eq] at h
    exact ⟨fun ⟨e, he⟩ => by simp [Except.map] at he, fun h' => absurd h' h⟩

/-- A cloud whose padding is zero, moved by `t`. -/
def padCloud (pts : List (V3 ℝ)) (extra : Nat) : Cloud := ⟨pts ++ List.replicate extra 0, pts.length⟩

theorem sum_replicate_zero (n : Nat) : (List.replicate n (0 : V3 ℝ)).sum = 0 := by
  induction n with
  | zero => rfl
  | succ n ih => rw [List.replicate_succ, List.sum_cons, ih, add_zero]

theorem sum_add (l : List (V3 ℝ)) (t : V3 ℝ) : (l.map (· + t)).sum = l.sum + (l.length : ℝ) • t := by
  induction l with
  | nil => ext <;> simp
  | cons a l ih =>
    rw [List.map_cons, List.sum_cons, ih, List.sum_cons, List.length_cons]
    ext <;> simp <;> ring

theorem centred_take (pts : List (V3 ℝ)) (extra : Nat) :
    (centred (padCloud pts extra)).take pts.length = pts.map fun x => x - meanOf pts := by
  unfold centred padCloud meanOf
  simp only [List.map_append, List.sum_append, sum_replicate_zero, add_zero]
  rw [List.take_left' (by simp)]

/-- **Normals of a batch.** With an exact eigenvector routine and more than `K` points in every cloud there is one unit vector for
each point, which fits its neighbourhood best. -/
theorem estimate_normals {eig : M3 ℝ → V3 ℝ × Cols} (heig : ∀ nb, IsEigh (cov nb) (eig (cov nb)))
    (knn : List (V3 ℝ) → Nat → Nat → List Nat) (d : Bool) (K : Nat) (cs : List Cloud) (h : ∀ c ∈ cs, K < c.num) :
    ∃ r : List (List (V3 ℝ)), estimateNormals eig knn d K cs = .ok r ∧ r.length = cs.length ∧
      ∀ (b : Nat) pts extra, cs[b]? = some (padCloud pts extra) → ∃ ns : List (V3 ℝ), r[b]? = some ns ∧ ns.length = pts.length ∧
        ∀ (i : Nat) n, ns[i]? = some n → V3.normSq n = 1 ∧ ∀ v, V3.normSq v = 1 →
          planeError (neighbours knn K (pts.map fun x => x - meanOf pts) i) n
            ≤ planeError (neighbours knn K (pts.map fun x => x - meanOf pts) i) v := by
  have hno : ¬ (cs.any fun c => decide (c.num ≤ K)) = true := by
    simp only [List.any_eq_true, decide_eq_true_eq, not_exists, not_and]
    intro c hc; have := h c hc; omega
  refine ⟨(cs.map (cloudFrames eig knn d K)).map (List.map fun f => f.2.1), ?_, by simp, ?_⟩
  · unfold estimateNormals estimateFrames
    rw [if_neg hno]; rfl
  · intro b pts extra hb
    refine ⟨(cloudFrames eig knn d K (padCloud pts extra)).map fun f => f.2.1, by simp [hb], ?_, ?_⟩
    · rw [List.length_map, cloudFrames]
      simp only [List.length_map, List.length_zipIdx]
      change ((centred (padCloud pts extra)).take pts.length).length = _
      rw [centred_take, List.length_map]
    · intro i n hn
      unfold cloudFrames at hn
      dsimp only at hn
      change (List.map _ (List.map _ ((centred (padCloud pts extra)).take pts.length).zipIdx))[i]? = _ at hn
      change ((List.map (fun f => f.2.1) (List.map (fun e => frame eig d e.1 (neighbours knn K
        ((centred (padCloud pts extra)).take pts.length) e.2)) ((centred (padCloud pts extra)).take pts.length).zipIdx)))[i]? = _ at hn
      rw [centred_take] at hn
      simp only [List.getElem?_map, List.getElem?_zipIdx, Option.map_map, Option.map_eq_some_iff] at hn
      obtain ⟨x, -, rfl⟩ := hn
      simp only [Nat.zero_add, Function.comp]
      generalize neighbours knn K (pts.map fun x => x - meanOf pts) i = nb
      refine ⟨?_, fun v hv => (normal_min _ d (heig nb) hv).1⟩
      cases d with
      | true => exact (frame_disamb _ (heig nb).ortho).1.n0
      | false => exact (heig nb).ortho.n0

/-- **Translations and padding.** The frames of a cloud are those of the cloud moved by any vector,
and do not depend on how far it is padded. -/
theorem frames_translate (eig : M3 ℝ → V3 ℝ × Cols) (knn : List (V3 ℝ) → Nat → Nat → List Nat) (d : Bool) (K : Nat)
    {pts : List (V3 ℝ)} (hp : pts ≠ []) (extra extra' : Nat) (t : V3 ℝ) :
    cloudFrames eig knn d K (padCloud (pts.map (· + t)) extra') = cloudFrames eig knn d K (padCloud pts extra) := by
  have hn : (pts.length : ℝ) ≠ 0 := by
    rw [Nat.cast_ne_zero]; exact fun h => hp (List.eq_nil_of_length_eq_zero h)
  have hm : meanOf (pts.map (· + t)) = meanOf pts + t := by
    unfold meanOf
    rw [sum_add, List.length_map]
    ext <;> simp <;> field_simp
  have hc : (centred (padCloud (pts.map (· + t)) extra')).take (pts.map (· + t)).length =
      (centred (padCloud pts extra)).take pts.length := by
    rw [centred_take, centred_take, hm, List.map_map]
    congr 1
    funext x
    ext <;> simp
  have e1 : (padCloud (pts.map (· + t)) extra').num = (pts.map (· + t)).length := rfl
  have e2 : (padCloud pts extra).num = pts.length := rfl
  unfold cloudFrames
  rw [e1, e2, hc]

/-- Coordinates as `knn_points` sees them. -/
def coords (v : V3 ℝ) : List ℝ := [v.x, v.y, v.z]

/-- What `knn_points` promises (C14): the nearest points of the cloud. -/
def KnnOk (knn : List (V3 ℝ) → Nat → Nat → List Nat) : Prop :=
  ∀ pts K i p, pts[i]? = some p → Knn.Nearest K (pts.map fun q => Knn.pdist 2 (coords p) (coords q)) (knn pts K i)

theorem filterMap_length {X : Type} (l : List X) (js : List Nat) (h : ∀ j ∈ js, j < l.length) :
    (js.filterMap fun j => l[j]?).length = js.length := by
  induction js with
  | nil => rfl
  | cons j js ih =>
    have hj := h j (by simp)
    rw [List.filterMap_cons, List.getElem?_eq_getElem hj]
    simp only [List.length_cons, ih fun k hk => h k (by simp [hk])]

/-- **Neighbourhoods.** When no error is raised every neighbourhood has exactly `K` points of the cloud,
and no point that was left out is nearer than one of them. -/
theorem neighbours_spec {knn : List (V3 ℝ) → Nat → Nat → List Nat} (hk : KnnOk knn) {K : Nat} {pts : List (V3 ℝ)}
    (hK : K < pts.length) {i : Nat} {p : V3 ℝ} (hp : pts[i]? = some p) :
    (neighbours knn K pts i).length = K ∧ (knn pts K i).Nodup ∧
    (∀ q ∈ neighbours knn K pts i, q ∈ pts) ∧
    ∀ j < pts.length, j ∉ knn pts K i → ∀ x ∈ pts[j]?, ∀ q ∈ neighbours knn K pts i,
      V3.normSq (q - p) ≤ V3.normSq (x - p) := by
  have hn := hk pts K i p hp
  have hlen : (pts.map fun q => Knn.pdist 2 (coords p) (coords q)).length = pts.length := List.length_map _
  have hd : ∀ q, Knn.pdist 2 (coords p) (coords q) = V3.normSq (q - p) := by
    intro q
    rw [Knn.pdist_eq]
    simp [coords, V3.normSq, V3.dot]; ring
  refine ⟨?_, hn.nodup, ?_, ?_⟩
  · rw [neighbours, filterMap_length pts _ (fun j hj => hlen ▸ hn.bound j hj), hn.length, hlen]; omega
  · intro q hq
    obtain ⟨j, -, hj⟩ := List.mem_filterMap.mp hq
    exact List.mem_of_getElem? hj
  · intro j hj hjn x hx q hq
    obtain ⟨k, hk1, hk2⟩ := List.mem_filterMap.mp hq
    have := hn.nearest k hk1 j (by rw [hlen]; exact hj) hjn (V3.normSq (q - p)) (by
      simp [List.getElem?_map, hk2, hd]) (V3.normSq (x - p)) (by
      rw [Option.mem_def] at hx
      simp [List.getElem?_map, hx, hd])
    exact this

/-! ## Small flat neighbourhoods -/

/-- Four neighbours at the corners of a horizontal square of side `2 h`. -/
def square (c : V3 ℝ) (h : ℝ) : List (V3 ℝ) :=
  [c + ⟨h, h, 0⟩, c + ⟨h, -h, 0⟩, c + ⟨-h, h, 0⟩, c + ⟨-h, -h, 0⟩]

theorem cov_square (c : V3 ℝ) (h : ℝ) : cov (square c h) = flat (h ^ 2) := by
  have hm : meanOf (square c h) = c := by
    ext <;> simp [meanOf, square] <;> ring
  unfold cov
  rw [hm]
  simp only [square, List.map_cons, List.map_nil, sumM, List.foldr_cons, List.foldr_nil, outer, M3.add_def,
    M3.zero_def, M3.smul_def, flat, List.length_cons, List.length_nil, V3.sub_x, V3.sub_y, V3.sub_z, V3.add_x, V3.add_y, V3.add_z]
  congr 1 <;> push_cast <;> ring

/-- **Wrong normals of small neighbourhoods.** The neighbours lie in a horizontal plane, the normal is
vertical, and the plane error of the vertical is zero; but when `h⁴ ≤ eps` the normal that is returned
with the default routine has squared vertical component at most two thirds, at every point and with or
without disambiguation. -/
theorem square_normal (c p : V3 ℝ) {h : ℝ} (h0 : 0 < h) (hs : h ^ 4 ≤ epsF) (d : Bool) :
    planeError (square c h) ⟨0, 0, 1⟩ = 0 ∧ (frame symeig3x3 d p (square c h)).2.1.z ^ 2 ≤ 2 / 3 := by
  constructor
  · rw [← cov_quad, cov_square]; simp [flat, M3.mulVec, V3.dot]
  · have hb := flat_normal_bad (eps := epsF) (a := h ^ 2) (by norm_num [epsF]) (by positivity) (by rw [← pow_mul]; exact hs)
    have hsym : symeig3x3 (cov (square c h)) = forward epsF (flat (h ^ 2)) := by rw [cov_square]; rfl
    unfold frame
    rw [hsym]
    cases d
    · exact hb
    · simp only [if_true]
      rw [disamb_cases]
      split
      · rw [V3.neg_z, neg_sq]; exact hb
      · exact hb

/-- A square of two centimetres. -/
example : (0 : ℝ) < 1 / 100 ∧ (1 / 100 : ℝ) ^ 4 ≤ epsF := by norm_num [epsF]

/-! ## An exact routine exists -/

theorem eigh_exists {A : M3 ℝ} (hs : Sym A) : ∃ e, IsEigh A e := by
  obtain ⟨s1, s2, s3⟩ := hs
  set M : Matrix (Fin 3) (Fin 3) ℝ := !![A.m00, A.m01, A.m02; A.m10, A.m11, A.m12; A.m20, A.m21, A.m22] with hM
  have hH : M.IsHermitian := by
    ext i j
    fin_cases i <;> fin_cases j <;> simp [hM, s1, s2, s3]
  set σ := Tuple.sort hH.eigenvalues with hσ
  have hmono := Tuple.monotone_sort hH.eigenvalues
  set B := hH.eigenvectorBasis
  let col : Fin 3 → V3 ℝ := fun i => ⟨B (σ i) 0, B (σ i) 1, B (σ i) 2⟩
  have hdot : ∀ i j, V3.dot (col i) (col j) = if i = j then 1 else 0 := by
    intro i j
    have h := orthonormal_iff_ite.mp B.orthonormal (σ i) (σ j)
    rw [EuclideanSpace.inner_eq_star_dotProduct] at h
    have : (σ i = σ j) = (i = j) := by simp
    simp only [this] at h
    rw [← h]
    simp [dotProduct, Fin.sum_univ_three, col, V3.dot, mul_comm]
  have hmul : ∀ i, A.mulVec (col i) = hH.eigenvalues (σ i) • col i := by
    intro i
    have h := hH.mulVec_eigenvectorBasis (σ i)
    have h0 := congrFun h 0
    have h1 := congrFun h 1
    have h2 := congrFun h 2
    simp [hM, Matrix.mulVec, dotProduct, Fin.sum_univ_three] at h0 h1 h2
    ext <;> simp [M3.mulVec, col, B]
    · exact h0
    · exact h1
    · exact h2
  refine ⟨(⟨hH.eigenvalues (σ 0), hH.eigenvalues (σ 1), hH.eigenvalues (σ 2)⟩, col 0, col 1, col 2),
    ⟨?_, ?_, ?_, ?_, ?_, ?_⟩, hmono (by decide), hmono (by decide), hmul 0, hmul 1, hmul 2⟩
  · exact hdot 0 0
  · exact hdot 1 1
  · exact hdot 2 2
  · exact hdot 0 1
  · exact hdot 0 2
  · exact hdot 1 2

end

end P3D.Normals
