/-
Alignment of cameras: `corresponding_cameras_alignment`, `ops/cameras_alignment.py`.

`n` cameras, each a rotation matrix and a translation acting on row vectors.  Numbers are real.  `torch.svd` is any function that
returns a singular value decomposition (`Align.SvdOk`).  Not modelled: the other attributes of the cameras, which are kept.
-/
import Verif.Align
import Verif.SvdExists
import Mathlib.LinearAlgebra.CrossProduct
import Mathlib.LinearAlgebra.Matrix.Determinant.Basic

set_option linter.unusedSectionVars false

namespace P3D.CameraAlign

open Matrix P3D.Align

noncomputable section

abbrev Mat := Matrix (Fin (2 + 1)) (Fin (2 + 1)) ℝ
abbrev Vec := Fin (2 + 1) → ℝ

/-- Extrinsics of a camera. -/
@[ext] structure Ext where
  R : Mat
  T : Vec

/-- A transform `(R_A, T_A, s_A)`. -/
structure Tr where
  R : Mat
  T : Vec
  s : ℝ

variable {n : Nat}

/-- `get_camera_center` (`renderer/cameras.py:161-185`): the translation of the inverse transform. -/
def center (c : Ext) : Vec := -(c.T ᵥ* c.R⁻¹)

/-- `_align_camera_centers` (`cameras_alignment.py:139-164`). -/
def alignCenters (svd : Mat → Mat × Vec × Mat) (es : Bool) (eps : ℝ) (src tgt : Fin n → Ext) : Tr :=
  let t := align svd es false eps (Matrix.of fun i => center (src i)) (Matrix.of fun i => center (tgt i)) n none
  ⟨t.Rᵀ, -(t.T ᵥ* t.Rᵀ), t.s⟩

/-- The mean of vectors. -/
def mean (f : Fin n → Vec) : Vec := fun j => (∑ i, f i j) / n

/-- The mean of all entries of an `(n, 3)` tensor. -/
def meanAll (f : Fin n → Vec) : ℝ := (∑ i, ∑ j, f i j) / (n * 3)

/-- `_align_camera_extrinsics` (`cameras_alignment.py:167-235`). -/
def alignExtrinsics (svd : Mat → Mat × Vec × Mat) (es : Bool) (eps : ℝ) (src tgt : Fin n → Ext) : Tr :=
  let cov : Mat := (n : ℝ)⁻¹ • ∑ i, (src i).R * ((tgt i).R)ᵀ
  let (U, _, V) := svd cov
  let A : Fin n → Vec := fun i => (src i).R *ᵥ (src i).T
  let B : Fin n → Vec := fun i => (src i).R *ᵥ (tgt i).T
  let Ac : Fin n → Vec := fun i => A i - mean A
  let Bc : Fin n → Vec := fun i => B i - mean B
  let s := if es && decide (1 < n) then meanAll (fun i => Ac i * Bc i) / max (meanAll fun i => Ac i * Ac i) eps else 1
  ⟨V * Uᵀ, mean B - s • mean A, s⟩

inductive Mode where
  | centers | extrinsics | other

/-- `cameras_alignment.py:121-133`. -/
def applyTr (t : Tr) (c : Ext) : Ext := ⟨t.R * c.R, t.T ᵥ* c.R + t.s • c.T⟩

/-- The transform used by a mode. -/
def estimate (svd : Mat → Mat × Vec × Mat) (m : Mode) (es : Bool) (eps : ℝ) (src tgt : Fin n → Ext) : Option Tr :=
  match m with
  | .centers => some (alignCenters svd es eps src tgt)
  | .extrinsics => some (alignExtrinsics svd es eps src tgt)
  | .other => none

/-- `corresponding_cameras_alignment` (`cameras_alignment.py:104-136`); `none` for the ValueErrors. -/
def alignCameras {m : Nat} (svd : Mat → Mat × Vec × Mat) (mode : Mode) (es : Bool) (eps : ℝ) (src : Fin n → Ext) (tgt : Fin m → Ext) :
    Option (Fin n → Ext) :=
  if h : n = m then (estimate svd mode es eps src fun i => tgt (Fin.cast h i)).map fun t i => applyTr t (src i) else none

/-! ## Specification -/

/-- A rotation. -/
def IsRot (R : Mat) : Prop := Rᵀ * R = 1 ∧ R.det = 1

/-- A point in the coordinates of a camera. -/
def view (c : Ext) (x : Vec) : Vec := x ᵥ* c.R + c.T

/-- The world of `src`, changed by `t`, is the world of `tgt`. -/
def Corresponds (t : Tr) (src tgt : Fin n → Ext) : Prop := ∀ i, tgt i = applyTr t (src i)

/-- Squared length. -/
def len2 (v : Vec) : ℝ := ∑ j, v j * v j

/-! ## What an alignment means -/

theorem IsRot.orth' {R : Mat} (h : IsRot R) : R * Rᵀ = 1 := mul_eq_one_comm.mp h.1

theorem IsRot.inv {R : Mat} (h : IsRot R) : R⁻¹ = Rᵀ := Matrix.inv_eq_left_inv h.1

theorem IsRot.mul {R Q : Mat} (h : IsRot R) (g : IsRot Q) : IsRot (R * Q) := by
  refine ⟨?_, by rw [det_mul, h.2, g.2, one_mul]⟩
  rw [transpose_mul, Matrix.mul_assoc, ← Matrix.mul_assoc Rᵀ, h.1, Matrix.one_mul, g.1]

theorem IsRot.transpose {R : Mat} (h : IsRot R) : IsRot Rᵀ := ⟨by rw [transpose_transpose]; exact h.orth', by rw [det_transpose]; exact h.2⟩

/-- **C81.** The aligned camera sees a point as the source camera sees the point moved by the transform, enlarged by its scale:
a perspective camera gives the same image. -/
theorem aligned_view (t : Tr) (hs : t.s ≠ 0) (c : Ext) (x : Vec) :
    view (applyTr t c) x = t.s • view c (t.s⁻¹ • (x ᵥ* t.R + t.T)) := by
  simp only [view, applyTr, Matrix.smul_vecMul, Matrix.add_vecMul, smul_add, smul_smul, mul_inv_cancel₀ hs, one_smul, Matrix.vecMul_vecMul]
  rw [add_assoc]

/-- **C81.** A batch is aligned exactly if it has as many cameras as the target and the mode is known. -/
theorem alignCameras_some {m : Nat} (svd : Mat → Mat × Vec × Mat) (mode : Mode) (es : Bool) (eps : ℝ) (src : Fin n → Ext) (tgt : Fin m → Ext) :
    (alignCameras svd mode es eps src tgt).isSome ↔ n = m ∧ mode ≠ .other := by
  unfold alignCameras
  split
  · rename_i h
    cases mode <;> simp [estimate, h]
  · rename_i h
    simp [h]

/-! ## The rotation in mode `extrinsics` -/

/-- The rotation is orthogonal. -/
theorem extrinsics_orth {svd : Mat → Mat × Vec × Mat} (hs : SvdOk svd) (es : Bool) (eps : ℝ) (src tgt : Fin n → Ext) :
    (alignExtrinsics svd es eps src tgt).Rᵀ * (alignExtrinsics svd es eps src tgt).R = 1 := by
  have h := hs ((n : ℝ)⁻¹ • ∑ i, (src i).R * ((tgt i).R)ᵀ)
  have hR : (alignExtrinsics svd es eps src tgt).R = (svd ((n : ℝ)⁻¹ • ∑ i, (src i).R * ((tgt i).R)ᵀ)).2.2
      * (svd ((n : ℝ)⁻¹ • ∑ i, (src i).R * ((tgt i).R)ᵀ)).1ᵀ := rfl
  rw [hR]
  set c := svd ((n : ℝ)⁻¹ • ∑ i, (src i).R * ((tgt i).R)ᵀ)
  rw [transpose_mul, transpose_transpose, Matrix.mul_assoc, ← Matrix.mul_assoc c.2.2ᵀ, h.orthV, Matrix.one_mul, mul_eq_one_comm.mp h.orthU]

/-- Squared distance of matrices. -/
def dist2 (A B : Mat) : ℝ := ∑ i, ∑ j, (A i j - B i j) ^ 2

theorem dist2_orth {A B : Mat} (hA : Aᵀ * A = 1) (hB : Bᵀ * B = 1) : dist2 A B = 6 - 2 * (Aᵀ * B).trace := by
  have key : ∀ M : Mat, Mᵀ * M = 1 → ∑ i, ∑ j, M i j * M i j = 3 := by
    intro M hM
    have : (Mᵀ * M).trace = 3 := by rw [hM]; simp
    rw [← this, Matrix.trace]
    simp only [Matrix.diag_apply, Matrix.mul_apply, Matrix.transpose_apply]
    rw [Finset.sum_comm]
  have e : (Aᵀ * B).trace = ∑ i, ∑ j, A i j * B i j := by
    rw [Matrix.trace]
    simp only [Matrix.diag_apply, Matrix.mul_apply, Matrix.transpose_apply]
    rw [Finset.sum_comm]
  rw [e]
  have : dist2 A B = ∑ i, ∑ j, A i j * A i j + ∑ i, ∑ j, B i j * B i j - 2 * ∑ i, ∑ j, A i j * B i j := by
    unfold dist2
    simp only [Finset.mul_sum, ← Finset.sum_add_distrib, ← Finset.sum_sub_distrib]
    exact Finset.sum_congr rfl fun i _ => Finset.sum_congr rfl fun j _ => by ring
  rw [this, key A hA, key B hB]
  ring

/-- **C81.** In mode `extrinsics` the rotation has the smallest squared error among all orthogonal matrices. -/
theorem extrinsics_min {svd : Mat → Mat × Vec × Mat} (hs : SvdOk svd) (es : Bool) (eps : ℝ) (hn : 0 < n) (src tgt : Fin n → Ext)
    (hsrc : ∀ i, IsRot (src i).R) (htgt : ∀ i, IsRot (tgt i).R) (Q : Mat) (hQ : Qᵀ * Q = 1) :
    ∑ i, dist2 ((alignExtrinsics svd es eps src tgt).R * (src i).R) (tgt i).R ≤ ∑ i, dist2 (Q * (src i).R) (tgt i).R := by
  have key : ∀ P : Mat, Pᵀ * P = 1 → ∑ i, dist2 (P * (src i).R) (tgt i).R
      = 6 * n - 2 * n * (P * ((n : ℝ)⁻¹ • ∑ i, (src i).R * ((tgt i).R)ᵀ)).trace := by
    intro P hP
    have h1 : ∀ i, dist2 (P * (src i).R) (tgt i).R = 6 - 2 * (P * ((src i).R * ((tgt i).R)ᵀ)).trace := by
      intro i
      rw [dist2_orth _ (htgt i).1]
      · rw [← Matrix.trace_transpose, transpose_mul, transpose_transpose, Matrix.trace_mul_comm, Matrix.mul_assoc]
      · rw [transpose_mul, Matrix.mul_assoc, ← Matrix.mul_assoc Pᵀ, hP, Matrix.one_mul, (hsrc i).1]
    rw [Finset.sum_congr rfl fun i _ => h1 i, Finset.sum_sub_distrib, ← Finset.mul_sum, Matrix.mul_smul, Matrix.trace_smul, Matrix.mul_sum,
      Matrix.trace_sum]
    have hn' : (n : ℝ) ≠ 0 := by exact_mod_cast hn.ne'
    simp only [Finset.sum_const, Finset.card_univ, Fintype.card_fin, nsmul_eq_mul, smul_eq_mul]
    field_simp
  rw [key _ (extrinsics_orth hs es eps src tgt), key Q hQ]
  have hR : (alignExtrinsics svd es eps src tgt).R = (svd ((n : ℝ)⁻¹ • ∑ i, (src i).R * ((tgt i).R)ᵀ)).2.2
      * (svd ((n : ℝ)⁻¹ • ∑ i, (src i).R * ((tgt i).R)ᵀ)).1ᵀ := rfl
  rw [hR]
  set C := ((n : ℝ)⁻¹ • ∑ i, (src i).R * ((tgt i).R)ᵀ)
  have h := hs C
  set c := svd C
  have hrefl : Align.refl true c.1 c.2.2 = fun _ => 1 := by funext i; simp [Align.refl]
  have hu := umeyama h true (R := Qᵀ) ⟨by rw [transpose_transpose]; exact mul_eq_one_comm.mp hQ, by simp⟩
  have ht := rot_trace h true
  rw [hrefl] at ht
  simp only [Bool.not_true, Bool.false_and, Bool.false_eq_true, if_false, transpose_transpose] at hu
  have e : (c.1 * diagonal (fun _ => (1 : ℝ)) * c.2.2ᵀ)ᵀ = c.2.2 * c.1ᵀ := by
    rw [show diagonal (fun _ => (1 : ℝ)) = (1 : Mat) from Matrix.diagonal_one, Matrix.mul_one, transpose_mul, transpose_transpose]
  rw [e] at ht
  rw [ht]
  have hpos : (0 : ℝ) < n := by exact_mod_cast hn
  nlinarith

/-- An orthogonal matrix has only singular values 1, so the factors recover it. -/
theorem svd_of_orth {A U V : Mat} {S : Vec} (h : IsSVD A U S V) (hA : Aᵀ * A = 1) : U * Vᵀ = A := by
  have hS : ∀ i, S i = 1 := by
    have e : Aᵀ * A = V * (diagonal S * diagonal S) * Vᵀ := by
      rw [h.eq, transpose_mul, transpose_mul, transpose_transpose, diagonal_transpose]
      calc V * (diagonal S * Uᵀ) * (U * diagonal S * Vᵀ) = V * (diagonal S * (Uᵀ * U) * diagonal S) * Vᵀ := by simp only [Matrix.mul_assoc]
        _ = _ := by rw [h.orthU, Matrix.mul_one]
    rw [hA] at e
    have e2 : diagonal S * diagonal S = 1 := by
      have := congrArg (fun M => Vᵀ * M * V) e
      simp only [Matrix.mul_one] at this
      rw [h.orthV] at this
      rw [this]
      calc diagonal S * diagonal S = (Vᵀ * V) * (diagonal S * diagonal S) * (Vᵀ * V) := by rw [h.orthV, Matrix.one_mul, Matrix.mul_one]
        _ = _ := by simp only [Matrix.mul_assoc]
    intro i
    have := congrFun (congrFun e2 i) i
    rw [diagonal_mul_diagonal, diagonal_apply_eq, Matrix.one_apply_eq] at this
    nlinarith [h.nonneg i]
  rw [h.eq, show S = fun _ => 1 from funext hS, show diagonal (fun _ => (1 : ℝ)) = (1 : Mat) from Matrix.diagonal_one, Matrix.mul_one]

/-- **C81.** If one rotation `Q` turns every source rotation into its target, it is found. -/
theorem extrinsics_R {svd : Mat → Mat × Vec × Mat} (hs : SvdOk svd) (es : Bool) (eps : ℝ) (hn : 0 < n) (src tgt : Fin n → Ext)
    (hsrc : ∀ i, IsRot (src i).R) (Q : Mat) (hQ : Qᵀ * Q = 1) (h : ∀ i, (tgt i).R = Q * (src i).R) :
    (alignExtrinsics svd es eps src tgt).R = Q := by
  have hR : (alignExtrinsics svd es eps src tgt).R = (svd ((n : ℝ)⁻¹ • ∑ i, (src i).R * ((tgt i).R)ᵀ)).2.2
      * (svd ((n : ℝ)⁻¹ • ∑ i, (src i).R * ((tgt i).R)ᵀ)).1ᵀ := rfl
  rw [hR]
  have e : ((n : ℝ)⁻¹ • ∑ i, (src i).R * ((tgt i).R)ᵀ) = Qᵀ := by
    have : ∀ i, (src i).R * ((tgt i).R)ᵀ = Qᵀ := fun i => by
      rw [h i, transpose_mul, ← Matrix.mul_assoc, (hsrc i).orth', Matrix.one_mul]
    rw [Finset.sum_congr rfl fun i _ => this i]
    have hn' : (n : ℝ) ≠ 0 := by exact_mod_cast hn.ne'
    ext a b
    simp only [Finset.sum_const, Finset.card_univ, Fintype.card_fin, Matrix.smul_apply, smul_eq_mul, nsmul_eq_mul]
    rw [← nsmul_eq_mul]
    simp only [Matrix.smul_apply, nsmul_eq_mul]
    field_simp
  rw [e]
  have := svd_of_orth (hs Qᵀ) (by rw [transpose_transpose]; exact mul_eq_one_comm.mp hQ)
  have h2 := congrArg Matrix.transpose this
  rw [transpose_mul, transpose_transpose, transpose_transpose] at h2
  exact h2

/-! ## Translation and scale in mode `extrinsics` -/

/-- Sum of squared lengths. -/
def err (a b : Fin n → Vec) (T : Vec) (s : ℝ) : ℝ := ∑ i, len2 (T + s • a i - b i)

theorem len2_vecMul (v : Vec) {R : Mat} (h : IsRot R) : len2 (v ᵥ* R) = len2 v := by
  have e : ∀ w : Vec, len2 w = w ⬝ᵥ w := fun w => rfl
  rw [e, e, ← Matrix.mulVec_transpose, Matrix.dotProduct_mulVec, Matrix.vecMul_transpose, Matrix.mulVec_mulVec, h.orth', Matrix.one_mulVec]

theorem err_rot (src tgt : Fin n → Ext) (hsrc : ∀ i, IsRot (src i).R) (T : Vec) (s : ℝ) :
    ∑ i, len2 ((T ᵥ* (src i).R + s • (src i).T) - (tgt i).T)
      = err (fun i => (src i).R *ᵥ (src i).T) (fun i => (src i).R *ᵥ (tgt i).T) T s := by
  refine Finset.sum_congr rfl fun i _ => ?_
  rw [← len2_vecMul _ (hsrc i).transpose]
  congr 1
  rw [Matrix.sub_vecMul, Matrix.add_vecMul, Matrix.smul_vecMul, Matrix.vecMul_transpose, Matrix.vecMul_transpose, Matrix.vecMul_transpose,
    ← Matrix.vecMul_transpose, Matrix.vecMul_vecMul, (hsrc i).orth', Matrix.vecMul_one]

theorem mean_mul (hn : 0 < n) (a : Fin n → Vec) (j : Fin (2 + 1)) : ∑ i, (a i j - mean a j) = 0 := by
  have hn' : (n : ℝ) ≠ 0 := by exact_mod_cast hn.ne'
  rw [Finset.sum_sub_distrib]
  simp only [mean, Finset.sum_const, Finset.card_univ, Fintype.card_fin, nsmul_eq_mul]
  field_simp
  ring

/-- Sums of products of centred vectors. -/
def cross (a b : Fin n → Vec) : ℝ := ∑ i, ∑ j, (a i j - mean a j) * (b i j - mean b j)

theorem err_decomp (hn : 0 < n) (a b : Fin n → Vec) (T : Vec) (s : ℝ) :
    err a b T s = (s ^ 2 * cross a a - 2 * s * cross a b + cross b b) + n * len2 (T + s • mean a - mean b) := by
  have cell : ∀ j : Fin (2 + 1), ∑ i, (T j + s * a i j - b i j) * (T j + s * a i j - b i j)
      = (s ^ 2 * (∑ i, (a i j - mean a j) * (a i j - mean a j)) - 2 * s * (∑ i, (a i j - mean a j) * (b i j - mean b j))
        + ∑ i, (b i j - mean b j) * (b i j - mean b j)) + n * ((T j + s * mean a j - mean b j) * (T j + s * mean a j - mean b j)) := by
    intro j
    have ha := mean_mul hn a j
    have hb := mean_mul hn b j
    set d := T j + s * mean a j - mean b j with hd
    have e : ∀ i, (T j + s * a i j - b i j) * (T j + s * a i j - b i j)
        = s ^ 2 * ((a i j - mean a j) * (a i j - mean a j)) - 2 * s * ((a i j - mean a j) * (b i j - mean b j))
          + (b i j - mean b j) * (b i j - mean b j) + d * d + 2 * d * s * (a i j - mean a j) - 2 * d * (b i j - mean b j) := by
      intro i; rw [hd]; ring
    rw [Finset.sum_congr rfl fun i _ => e i]
    simp only [Finset.sum_sub_distrib, Finset.sum_add_distrib, ← Finset.mul_sum] at ha hb ⊢
    rw [ha, hb]
    simp
    ring
  unfold err len2 cross
  rw [Finset.sum_comm]
  simp only [Pi.add_apply, Pi.sub_apply, Pi.smul_apply, smul_eq_mul]
  rw [Finset.sum_congr rfl fun j _ => cell j]
  simp only [Finset.sum_add_distrib, Finset.sum_sub_distrib, ← Finset.mul_sum]
  rw [Finset.sum_comm (f := fun j i => (a i j - mean a j) * (a i j - mean a j)), Finset.sum_comm (f := fun j i => (a i j - mean a j) * (b i j - mean b j)),
    Finset.sum_comm (f := fun j i => (b i j - mean b j) * (b i j - mean b j))]

/-- Variance of the source translations (the camera centres up to sign), over all coordinates. -/
def spread (src : Fin n → Ext) : ℝ := cross (fun i => (src i).R *ᵥ (src i).T) (fun i => (src i).R *ᵥ (src i).T) / (n * 3)

theorem ext_s (svd : Mat → Mat × Vec × Mat) (es : Bool) (eps : ℝ) (src tgt : Fin n → Ext) :
    (alignExtrinsics svd es eps src tgt).s = if es && decide (1 < n) then
      cross (fun i => (src i).R *ᵥ (src i).T) (fun i => (src i).R *ᵥ (tgt i).T) / (n * 3) / max (spread src) eps else 1 := rfl

theorem ext_T (svd : Mat → Mat × Vec × Mat) (es : Bool) (eps : ℝ) (src tgt : Fin n → Ext) :
    (alignExtrinsics svd es eps src tgt).T = mean (fun i => (src i).R *ᵥ (tgt i).T)
      - (alignExtrinsics svd es eps src tgt).s • mean fun i => (src i).R *ᵥ (src i).T := rfl

theorem len2_nonneg (v : Vec) : 0 ≤ len2 v := Finset.sum_nonneg fun _ _ => mul_self_nonneg _

/-- **C81.** Translation and scale of mode `extrinsics` have the smallest squared error of the camera translations: among all
pairs, provided the camera centres vary by at least `eps`, and without `estimate_scale` or for one camera among those with scale 1. -/
theorem extrinsics_T_min {svd : Mat → Mat × Vec × Mat} (es : Bool) {eps : ℝ} (he : 0 < eps) (hn : 0 < n) (src tgt : Fin n → Ext)
    (hsrc : ∀ i, IsRot (src i).R) (T : Vec) (s : ℝ) (h : if es && decide (1 < n) then eps ≤ spread src else s = 1) :
    let t := alignExtrinsics svd es eps src tgt
    ∑ i, len2 ((t.T ᵥ* (src i).R + t.s • (src i).T) - (tgt i).T) ≤ ∑ i, len2 ((T ᵥ* (src i).R + s • (src i).T) - (tgt i).T) := by
  intro t
  rw [err_rot src tgt hsrc, err_rot src tgt hsrc, err_decomp hn, err_decomp hn]
  have h0 : len2 (t.T + t.s • mean (fun i => (src i).R *ᵥ (src i).T) - mean (fun i => (src i).R *ᵥ (tgt i).T)) = 0 := by
    have : t.T = mean (fun i => (src i).R *ᵥ (tgt i).T) - t.s • mean fun i => (src i).R *ᵥ (src i).T := ext_T svd es eps src tgt
    rw [this]
    simp [len2]
  rw [h0, mul_zero, add_zero]
  have hp : (0 : ℝ) ≤ n * len2 (T + s • mean (fun i => (src i).R *ᵥ (src i).T) - mean (fun i => (src i).R *ᵥ (tgt i).T)) :=
    mul_nonneg (Nat.cast_nonneg _) (len2_nonneg _)
  have hs : t.s = _ := ext_s svd es eps src tgt
  by_cases hb : (es && decide (1 < n)) = true
  · rw [if_pos hb] at h hs
    rw [max_eq_left h] at hs
    have hn' : (0 : ℝ) < n := by exact_mod_cast hn
    have hsp : spread src = cross (fun i => (src i).R *ᵥ (src i).T) (fun i => (src i).R *ᵥ (src i).T) / (n * 3) := rfl
    rw [hs]
    set Saa := cross (fun i => (src i).R *ᵥ (src i).T) (fun i => (src i).R *ᵥ (src i).T)
    set Sab := cross (fun i => (src i).R *ᵥ (src i).T) (fun i => (src i).R *ᵥ (tgt i).T)
    have hv : 0 < spread src := lt_of_lt_of_le he h
    have hS : 0 < Saa := by
      rw [hsp] at hv
      by_contra hc
      have := div_nonpos_of_nonpos_of_nonneg (not_lt.mp hc) (by positivity : (0 : ℝ) ≤ n * 3)
      linarith
    have e : Sab / (n * 3) / spread src = Sab / Saa := by rw [hsp]; field_simp
    rw [e]
    have e2 : (Sab / Saa) ^ 2 * Saa - 2 * (Sab / Saa) * Sab = - (Sab ^ 2 / Saa) := by field_simp; ring
    have e3 : s ^ 2 * Saa - 2 * s * Sab + Sab ^ 2 / Saa = (s * Saa - Sab) ^ 2 / Saa := by field_simp; ring
    have e4 : 0 ≤ (s * Saa - Sab) ^ 2 / Saa := by positivity
    linarith
  · rw [if_neg hb] at h hs
    rw [h] at hp ⊢
    rw [hs]
    linarith

/-- **C81.** Cameras whose worlds differ by a similarity transform: mode `extrinsics` gives exactly the target cameras, provided
the camera centres vary by at least `eps`. -/
theorem extrinsics_exact {svd : Mat → Mat × Vec × Mat} (hs : SvdOk svd) (es : Bool) {eps : ℝ} (he : 0 < eps) (hn : 0 < n) (src tgt : Fin n → Ext)
    (hsrc : ∀ i, IsRot (src i).R) (t : Tr) (ht : t.Rᵀ * t.R = 1) (h : Corresponds t src tgt)
    (hv : if es && decide (1 < n) then eps ≤ spread src else t.s = 1) (i : Fin n) :
    applyTr (alignExtrinsics svd es eps src tgt) (src i) = tgt i := by
  have hR := extrinsics_R hs es eps hn src tgt hsrc t.R ht fun i => by rw [h i]; rfl
  have hmin := extrinsics_T_min (svd := svd) es he hn src tgt hsrc t.T t.s hv
  dsimp only at hmin
  have h0 : ∑ i, len2 ((t.T ᵥ* (src i).R + t.s • (src i).T) - (tgt i).T) = 0 := by
    refine Finset.sum_eq_zero fun i _ => ?_
    rw [h i]
    simp [applyTr, len2]
  rw [h0] at hmin
  have hz := (Finset.sum_eq_zero_iff_of_nonneg fun i _ => len2_nonneg _).mp
    (le_antisymm hmin (Finset.sum_nonneg fun i _ => len2_nonneg _)) i (Finset.mem_univ i)
  have hz2 := (Finset.sum_eq_zero_iff_of_nonneg fun _ _ => mul_self_nonneg _).mp hz
  ext a b
  · simp only [applyTr]
    rw [hR, h i]
    rfl
  · have := hz2 a (Finset.mem_univ a)
    rw [mul_self_eq_zero] at this
    simp only [Pi.sub_apply, sub_eq_zero] at this
    exact this

/-- **C81.** One camera is always aligned exactly in mode `extrinsics`. -/
theorem extrinsics_single {svd : Mat → Mat × Vec × Mat} (hs : SvdOk svd) (es : Bool) {eps : ℝ} (he : 0 < eps) (src tgt : Fin 1 → Ext)
    (hsrc : ∀ i, IsRot (src i).R) (htgt : ∀ i, IsRot (tgt i).R) (i : Fin 1) :
    applyTr (alignExtrinsics svd es eps src tgt) (src i) = tgt i := by
  refine extrinsics_exact hs es he one_pos src tgt hsrc ⟨(tgt 0).R * ((src 0).R)ᵀ, ((tgt 0).T - (src 0).T) ᵥ* ((src 0).R)ᵀ, 1⟩ ?_ ?_ ?_ i
  · exact ((htgt 0).mul (hsrc 0).transpose).1
  · intro i
    rw [Fin.fin_one_eq_zero i]
    ext a b
    · simp only [applyTr]
      rw [Matrix.mul_assoc, (hsrc 0).1, Matrix.mul_one]
    · simp only [applyTr]
      rw [Matrix.vecMul_vecMul, (hsrc 0).1, Matrix.vecMul_one]
      simp
  · simp

/-- **C81.** The scale found for cameras related by a similarity transform is its scale, shrunk if the centres vary by less than `eps`. -/
theorem extrinsics_scale (svd : Mat → Mat × Vec × Mat) (eps : ℝ) (hn : 1 < n) (src tgt : Fin n → Ext)
    (hsrc : ∀ i, IsRot (src i).R) (t : Tr) (h : Corresponds t src tgt) :
    (alignExtrinsics svd true eps src tgt).s = t.s * spread src / max (spread src) eps := by
  rw [ext_s, if_pos (by simp [hn])]
  have hB : ∀ i, (src i).R *ᵥ (tgt i).T = t.T + t.s • ((src i).R *ᵥ (src i).T) := by
    intro i
    rw [h i]
    simp only [applyTr]
    rw [Matrix.mulVec_add, Matrix.mulVec_smul, ← Matrix.vecMul_transpose, Matrix.vecMul_vecMul, (hsrc i).orth', Matrix.vecMul_one]
  have hn' : (n : ℝ) ≠ 0 := by exact_mod_cast (by omega : n ≠ 0)
  have hc : cross (fun i => (src i).R *ᵥ (src i).T) (fun i => (src i).R *ᵥ (tgt i).T)
      = t.s * cross (fun i => (src i).R *ᵥ (src i).T) (fun i => (src i).R *ᵥ (src i).T) := by
    have hm : ∀ j, mean (fun i => (src i).R *ᵥ (tgt i).T) j = t.T j + t.s * mean (fun i => (src i).R *ᵥ (src i).T) j := by
      intro j
      simp only [mean, hB, Pi.add_apply, Pi.smul_apply, smul_eq_mul, Finset.sum_add_distrib, ← Finset.mul_sum, Finset.sum_const,
        Finset.card_univ, Fintype.card_fin, nsmul_eq_mul]
      field_simp
    unfold cross
    simp only [hm]
    simp only [hB, Pi.add_apply, Pi.smul_apply, smul_eq_mul, Finset.mul_sum]
    exact Finset.sum_congr rfl fun i _ => Finset.sum_congr rfl fun j _ => by ring
  rw [hc]
  unfold spread
  ring

/-- Half turns about the axes. -/
def halfTurn (k : Fin 3) : Mat := diagonal fun i => if i = k then 1 else -1

theorem halfTurn_rot (k : Fin 3) : IsRot (halfTurn k) := by
  constructor
  · unfold halfTurn
    rw [diagonal_transpose, diagonal_mul_diagonal]
    rw [show (fun i : Fin (2 + 1) => (if i = k then (1 : ℝ) else -1) * (if i = k then 1 else -1)) = fun _ => 1 from funext fun i => by split <;> norm_num]
    exact Matrix.diagonal_one
  · unfold halfTurn
    rw [det_diagonal]
    fin_cases k <;> simp [Fin.prod_univ_three]

/-- Three cameras at the origin, turned about the three axes by half turns, and three that are not turned. -/
def turned (k : Fin 3) : Ext := ⟨halfTurn k, 0⟩
def upright (_ : Fin 3) : Ext := ⟨1, 0⟩

/-- **C81.** The documentation says that the transform cannot be a reflection; in mode `extrinsics` it can. -/
theorem extrinsics_reflection {svd : Mat → Mat × Vec × Mat} (hs : SvdOk svd) (es : Bool) (eps : ℝ) :
    (alignExtrinsics svd es eps turned upright).R = -1 ∧ (alignExtrinsics svd es eps turned upright).R.det = -1 := by
  have hR : (alignExtrinsics svd es eps turned upright).R = (svd (((3 : ℕ) : ℝ)⁻¹ • ∑ i, (turned i).R * ((upright i).R)ᵀ)).2.2
      * (svd (((3 : ℕ) : ℝ)⁻¹ • ∑ i, (turned i).R * ((upright i).R)ᵀ)).1ᵀ := rfl
  have e : (((3 : ℕ) : ℝ)⁻¹ • ∑ i, (turned i).R * ((upright i).R)ᵀ) = (-(1 / 3) : ℝ) • (1 : Mat) := by
    have hsum : ∀ i : Fin 3, (if i = 0 then (1 : ℝ) else -1) + (if i = 1 then 1 else -1) + (if i = 2 then 1 else -1) = -1
      | 0 => by rw [if_pos rfl, if_neg (by decide), if_neg (by decide)]; norm_num
      | 1 => by rw [if_neg (by decide), if_pos rfl, if_neg (by decide)]; norm_num
      | 2 => by rw [if_neg (by decide), if_neg (by decide), if_pos rfl]; norm_num
    simp only [turned, upright, transpose_one, Matrix.mul_one, Fin.sum_univ_three, halfTurn, diagonal_add]
    rw [show (fun i : Fin (2 + 1) => (if i = (0 : Fin 3) then (1 : ℝ) else -1) + (if i = (1 : Fin 3) then 1 else -1)
      + (if i = (2 : Fin 3) then 1 else -1)) = fun _ => -1 from funext hsum, ← Matrix.smul_one_eq_diagonal, smul_smul]
    norm_num
  rw [e] at hR
  have h := hs ((-(1 / 3) : ℝ) • (1 : Mat))
  set c := svd ((-(1 / 3) : ℝ) • (1 : Mat))
  have key : c.1 * c.2.2ᵀ = -1 := by
    have hS : ∀ i, c.2.1 i = 1 / 3 := by
      have e1 : diagonal c.2.1 = (-(1 / 3) : ℝ) • (c.1ᵀ * c.2.2) := by
        have := congrArg (fun M => c.1ᵀ * M * c.2.2) h.eq
        simp only [Matrix.mul_smul, Matrix.smul_mul, Matrix.mul_one] at this
        rw [this]
        calc diagonal c.2.1 = (c.1ᵀ * c.1) * diagonal c.2.1 * (c.2.2ᵀ * c.2.2) := by rw [h.orthU, h.orthV, Matrix.one_mul, Matrix.mul_one]
          _ = _ := by simp only [Matrix.mul_assoc]
      have e2 : diagonal c.2.1 * (diagonal c.2.1)ᵀ = (1 / 9 : ℝ) • (1 : Mat) := by
        rw [e1, transpose_smul, Matrix.smul_mul, Matrix.mul_smul, smul_smul, transpose_mul, transpose_transpose, Matrix.mul_assoc,
          ← Matrix.mul_assoc c.2.2, mul_eq_one_comm.mp h.orthV, Matrix.one_mul, h.orthU]
        norm_num
      intro i
      have := congrFun (congrFun e2 i) i
      rw [diagonal_transpose, diagonal_mul_diagonal, diagonal_apply_eq, Matrix.smul_apply, Matrix.one_apply_eq, smul_eq_mul] at this
      nlinarith [h.nonneg i]
    have e3 := h.eq
    rw [show c.2.1 = fun _ => 1 / 3 from funext hS, show diagonal (fun _ => (1 / 3 : ℝ)) = (1 / 3 : ℝ) • (1 : Mat) from
      (Matrix.smul_one_eq_diagonal (1 / 3 : ℝ)).symm, Matrix.mul_smul, Matrix.mul_one, Matrix.smul_mul] at e3
    have e4 := congrArg (fun M => (3 : ℝ) • M) e3
    simp only [smul_smul] at e4
    norm_num at e4
    exact e4.symm
  have hneg : (alignExtrinsics svd es eps turned upright).R = -1 := by
    rw [hR]
    have := congrArg Matrix.transpose key
    rw [transpose_mul, transpose_transpose, transpose_neg, transpose_one] at this
    exact this
  refine ⟨hneg, ?_⟩
  rw [hneg, Matrix.det_neg]
  norm_num

/-! ## Mode `centers` -/

theorem center_rot {c : Ext} (h : IsRot c.R) : center c = -(c.T ᵥ* c.Rᵀ) := by unfold center; rw [h.inv]

/-- The centre is the point that the camera sees at the origin. -/
theorem view_center {c : Ext} (h : IsRot c.R) : view c (center c) = 0 := by
  rw [center_rot h, view, Matrix.neg_vecMul, Matrix.vecMul_vecMul, h.1, Matrix.vecMul_one]
  simp

variable {svd : Mat → Mat × Vec × Mat}

/-- The similarity transform of the centres that was found. -/
def centerSim (svd : Mat → Mat × Vec × Mat) (es : Bool) (eps : ℝ) (src tgt : Fin n → Ext) : Sim 2 :=
  align svd es false eps (Matrix.of fun i => center (src i)) (Matrix.of fun i => center (tgt i)) n none

theorem centerSim_rot (hs : SvdOk svd) (es : Bool) {eps : ℝ} (he : 0 < eps) (src tgt : Fin n → Ext) : IsRot (centerSim svd es eps src tgt).R := by
  have := (align_admissible hs es false he (Matrix.of fun i => center (src i)) (Matrix.of fun i => center (tgt i)) n none).1
  exact ⟨this.1, this.2 rfl⟩

/-- **C81.** Mode `centers` keeps rotations: its transform is never a reflection, its scale is not negative. -/
theorem centers_rot (hs : SvdOk svd) (es : Bool) {eps : ℝ} (he : 0 < eps) (src tgt : Fin n → Ext) (hsrc : ∀ i, IsRot (src i).R) :
    (∀ i, IsRot (applyTr (alignCenters svd es eps src tgt) (src i)).R) ∧ 0 ≤ (alignCenters svd es eps src tgt).s := by
  refine ⟨fun i => (centerSim_rot hs es he src tgt).transpose.mul (hsrc i), ?_⟩
  rcases (align_admissible hs es false he (Matrix.of fun i => center (src i)) (Matrix.of fun i => center (tgt i)) n none).2.1 with h | h
  · exact h
  · exact absurd h.1 (by norm_num)

/-- **C81.** The centres of the cameras aligned in mode `centers` are the source centres moved by the similarity transform of
`corresponding_points_alignment`. -/
theorem centers_center (hs : SvdOk svd) (es : Bool) {eps : ℝ} (he : 0 < eps) (src tgt : Fin n → Ext) (hsrc : ∀ i, IsRot (src i).R) (i : Fin n) :
    center (applyTr (alignCenters svd es eps src tgt) (src i))
      = (centerSim svd es eps src tgt).s • (center (src i) ᵥ* (centerSim svd es eps src tgt).R) + (centerSim svd es eps src tgt).T := by
  have hr := centerSim_rot hs es he src tgt
  rw [center_rot ((centers_rot hs es he src tgt hsrc).1 i), center_rot (hsrc i)]
  set t := centerSim svd es eps src tgt with ht
  have e : alignCenters svd es eps src tgt = ⟨t.Rᵀ, -(t.T ᵥ* t.Rᵀ), t.s⟩ := rfl
  rw [e]
  simp only [applyTr, transpose_mul, transpose_transpose]
  rw [Matrix.add_vecMul, ← Matrix.vecMul_vecMul, Matrix.vecMul_vecMul _ (src i).R, (hsrc i).orth', Matrix.vecMul_one, Matrix.neg_vecMul,
    Matrix.vecMul_vecMul, hr.1, Matrix.vecMul_one, Matrix.neg_vecMul, Matrix.smul_vecMul, ← Matrix.vecMul_vecMul]
  rw [neg_add, neg_neg, add_comm, smul_neg]

/-- **C81.** No similarity transform brings the camera centres closer to those of the targets (squared distances), provided they
vary by at least `eps`. -/
theorem centers_min (hs : SvdOk svd) (es : Bool) {eps : ℝ} (he : 0 < eps) (hn : 0 < n) (src tgt : Fin n → Ext) (hsrc : ∀ i, IsRot (src i).R)
    (hv : es = true → eps ≤ variance eps (Matrix.of fun i => center (src i)) n none) (R : Mat) (hR : IsRot R) (T : Vec) (s : ℝ) (hs0 : 0 ≤ s)
    (hs1 : es = false → s = 1) :
    ∑ i, len2 (center (applyTr (alignCenters svd es eps src tgt) (src i)) - center (tgt i))
      ≤ ∑ i, len2 ((s • (center (src i) ᵥ* R) + T) - center (tgt i)) := by
  have h := align_min hs es false he (Matrix.of fun i => center (src i)) (Matrix.of fun i => center (tgt i)) n (w := none) hn one_pos
    (fun i => Or.inr rfl) hv ⟨R, T, s⟩ ⟨⟨hR.1, fun _ => hR.2⟩, Or.inl hs0, hs1⟩
  have e : ∀ t : Sim 2, cost (Matrix.of fun i => center (src i)) (Matrix.of fun i => center (tgt i)) (weightOf none) t
      = ∑ i, len2 ((t.s • (center (src i) ᵥ* t.R) + t.T) - center (tgt i)) := by
    intro t
    unfold cost len2
    refine Finset.sum_congr rfl fun i _ => ?_
    rw [show weightOf (none : Option (Fin n → ℝ)) i = 1 from rfl, one_mul]
    refine Finset.sum_congr rfl fun j _ => ?_
    rw [pow_two]
    rfl
  rw [e, e] at h
  refine le_trans (le_of_eq ?_) h
  refine Finset.sum_congr rfl fun i _ => ?_
  rw [centers_center hs es he src tgt hsrc i]
  rfl

/-- The centres of transformed cameras. -/
theorem center_applyTr (t : Tr) (ht : IsRot t.R) (c : Ext) (hc : IsRot c.R) :
    center (applyTr t c) = t.s • (center c ᵥ* t.Rᵀ) - t.T ᵥ* t.Rᵀ := by
  rw [center_rot (ht.mul hc), center_rot hc]
  simp only [applyTr, transpose_mul]
  rw [Matrix.add_vecMul, ← Matrix.vecMul_vecMul, Matrix.vecMul_vecMul _ c.R, hc.orth', Matrix.vecMul_one, Matrix.neg_vecMul,
    Matrix.smul_vecMul, ← Matrix.vecMul_vecMul]
  rw [neg_add, smul_neg]
  abel

/-- **C81.** Cameras related by a similarity transform: mode `centers` moves every centre exactly onto its target. -/
theorem centers_exact (hs : SvdOk svd) (es : Bool) {eps : ℝ} (he : 0 < eps) (hn : 0 < n) (src tgt : Fin n → Ext) (hsrc : ∀ i, IsRot (src i).R)
    (hv : es = true → eps ≤ variance eps (Matrix.of fun i => center (src i)) n none) (t : Tr) (ht : IsRot t.R) (hs0 : 0 ≤ t.s)
    (hs1 : es = false → t.s = 1) (h : Corresponds t src tgt) (i : Fin n) :
    center (applyTr (alignCenters svd es eps src tgt) (src i)) = center (tgt i) := by
  have hm := centers_min hs es he hn src tgt hsrc hv t.Rᵀ ht.transpose (-(t.T ᵥ* t.Rᵀ)) t.s hs0 hs1
  have h0 : ∑ i, len2 ((t.s • (center (src i) ᵥ* t.Rᵀ) + -(t.T ᵥ* t.Rᵀ)) - center (tgt i)) = 0 := by
    refine Finset.sum_eq_zero fun i _ => ?_
    rw [h i, center_applyTr t ht _ (hsrc i), ← sub_eq_add_neg, sub_self]
    simp [len2]
  rw [h0] at hm
  have hz := (Finset.sum_eq_zero_iff_of_nonneg fun i _ => len2_nonneg _).mp
    (le_antisymm hm (Finset.sum_nonneg fun i _ => len2_nonneg _)) i (Finset.mem_univ i)
  have hz2 := (Finset.sum_eq_zero_iff_of_nonneg fun _ _ => mul_self_nonneg _).mp hz
  funext a
  have := hz2 a (Finset.mem_univ a)
  rw [mul_self_eq_zero, Pi.sub_apply, sub_eq_zero] at this
  exact this

/-- The matrix with three rows. -/
def rows3 (u v w : Vec) : Mat := ![u, v, w]

theorem triple (u v w : Vec) : u ⬝ᵥ crossProduct v w = (rows3 u v w).det := triple_product_eq_det u v w

/-- Rotations respect cross products. -/
theorem rot_cross {R : Mat} (h : IsRot R) (v w : Vec) : crossProduct (v ᵥ* R) (w ᵥ* R) = crossProduct v w ᵥ* R := by
  have key : R *ᵥ crossProduct (v ᵥ* R) (w ᵥ* R) = crossProduct v w := by
    have hu : ∀ u : Vec, u ⬝ᵥ (R *ᵥ crossProduct (v ᵥ* R) (w ᵥ* R)) = u ⬝ᵥ crossProduct v w := by
      intro u
      rw [Matrix.dotProduct_mulVec, triple, triple]
      have e : rows3 (u ᵥ* R) (v ᵥ* R) (w ᵥ* R) = rows3 u v w * R := by
        ext a b
        fin_cases a <;> rfl
      rw [e, det_mul, h.2, mul_one]
    funext a
    have := hu (Pi.single a 1)
    rwa [single_one_dotProduct, single_one_dotProduct] at this
  rw [← key, ← Matrix.mulVec_transpose R (R *ᵥ _), Matrix.mulVec_mulVec, h.1, Matrix.one_mulVec]

/-- Two rotations that agree on independent vectors are equal. -/
theorem rot_unique {R Q : Mat} (hR : IsRot R) (hQ : IsRot Q) (v w : Vec) (hv : v ᵥ* R = v ᵥ* Q) (hw : w ᵥ* R = w ᵥ* Q)
    (hc : crossProduct v w ≠ 0) : R = Q := by
  have hx : crossProduct v w ᵥ* R = crossProduct v w ᵥ* Q := by rw [← rot_cross hR, ← rot_cross hQ, hv, hw]
  have hM : (rows3 (crossProduct v w) v w) * R = (rows3 (crossProduct v w) v w) * Q := by
    ext a b
    fin_cases a
    · exact congrFun hx b
    · exact congrFun hv b
    · exact congrFun hw b
  have hd : (rows3 (crossProduct v w) v w).det ≠ 0 := by
    rw [← triple]
    intro h0
    exact hc (dotProduct_self_eq_zero.mp h0)
  have hu : IsUnit (rows3 (crossProduct v w) v w).det := isUnit_iff_ne_zero.mpr hd
  have := congrArg (fun N => (rows3 (crossProduct v w) v w)⁻¹ * N) hM
  simp only [← Matrix.mul_assoc] at this
  rwa [Matrix.nonsing_inv_mul _ hu, Matrix.one_mul, Matrix.one_mul] at this

/-- **C81.** If moreover three centres are not on a line and the scale is not 0, the aligned cameras are the targets. -/
theorem centers_exact_cameras (hs : SvdOk svd) (es : Bool) {eps : ℝ} (he : 0 < eps) (src tgt : Fin n → Ext) (hsrc : ∀ i, IsRot (src i).R)
    (hv : es = true → eps ≤ variance eps (Matrix.of fun i => center (src i)) n none) (t : Tr) (ht : IsRot t.R) (hs0 : 0 < t.s)
    (hs1 : es = false → t.s = 1) (h : Corresponds t src tgt) (i j k : Fin n)
    (hc : crossProduct (center (src j) - center (src i)) (center (src k) - center (src i)) ≠ 0) (l : Fin n) :
    applyTr (alignCenters svd es eps src tgt) (src l) = tgt l := by
  have hn : 0 < n := Fin.pos i
  have hex := centers_exact hs es he hn src tgt hsrc hv t ht hs0.le hs1 h
  set c := centerSim svd es eps src tgt with hcdef
  have hr := centerSim_rot hs es he src tgt
  have hal : alignCenters svd es eps src tgt = ⟨c.Rᵀ, -(c.T ᵥ* c.Rᵀ), c.s⟩ := rfl
  have e1 : ∀ a b, c.s • ((center (src a) - center (src b)) ᵥ* c.R) = t.s • ((center (src a) - center (src b)) ᵥ* t.Rᵀ) := by
    intro a b
    have ha := hex a
    have hb := hex b
    rw [centers_center hs es he src tgt hsrc, h, center_applyTr t ht _ (hsrc _)] at ha hb
    rw [Matrix.sub_vecMul, Matrix.sub_vecMul, smul_sub, smul_sub]
    have := congrArg₂ (· - ·) ha hb
    simp only [add_sub_add_right_eq_sub, sub_sub_sub_cancel_right] at this
    exact this
  have hcs : 0 ≤ c.s := (centers_rot hs es he src tgt hsrc).2
  have hne : center (src j) - center (src i) ≠ 0 := by
    intro h0
    rw [h0] at hc
    simp at hc
  have hlen : 0 < len2 (center (src j) - center (src i)) := by
    refine lt_of_le_of_ne (len2_nonneg _) fun h0 => hne ?_
    exact dotProduct_self_eq_zero.mp h0.symm
  have hss : c.s = t.s := by
    have hl := congrArg len2 (e1 j i)
    have hsm : ∀ (r : ℝ) (v : Vec), len2 (r • v) = r ^ 2 * len2 v := by
      intro r v
      unfold len2
      rw [Finset.mul_sum]
      exact Finset.sum_congr rfl fun j _ => by simp only [Pi.smul_apply, smul_eq_mul]; ring
    rw [hsm, hsm, len2_vecMul _ hr, len2_vecMul _ ht.transpose] at hl
    have := mul_right_cancel₀ hlen.ne' hl
    exact (pow_left_inj₀ hcs hs0.le two_ne_zero).mp this
  have hRR : c.R = t.Rᵀ := by
    refine rot_unique hr ht.transpose _ _ ?_ ?_ hc
    · have := e1 j i
      rw [hss] at this
      exact smul_right_injective _ hs0.ne' this
    · have := e1 k i
      rw [hss] at this
      exact smul_right_injective _ hs0.ne' this
  have hTT : -(c.T ᵥ* c.Rᵀ) = t.T := by
    have ha := hex i
    rw [centers_center hs es he src tgt hsrc, h, center_applyTr t ht _ (hsrc _), ← hcdef, hss, hRR] at ha
    have hT : c.T = -(t.T ᵥ* t.Rᵀ) := by
      rw [sub_eq_add_neg] at ha
      exact add_left_cancel ha
    rw [hT, hRR, transpose_transpose, Matrix.neg_vecMul, neg_neg, Matrix.vecMul_vecMul, ht.1, Matrix.vecMul_one]
  rw [h l, hal, hTT, hRR, hss, transpose_transpose]

/-- **C81.** Mode `centers` does not look at the rotations: two targets with the same centres give the same result. -/
theorem centers_only (es : Bool) (eps : ℝ) (src tgt tgt' : Fin n → Ext) (h : ∀ i, center (tgt i) = center (tgt' i)) :
    alignCenters svd es eps src tgt = alignCenters svd es eps src tgt' := by
  unfold alignCenters
  simp only [h]

/-- **C81.** One camera (or cameras in one place) in mode `centers` with `estimate_scale`: the scale is 0 and all source
translations are lost. -/
theorem centers_collapse (hs : SvdOk svd) (eps : ℝ) (hn : 0 < n) (src tgt : Fin n → Ext) (h : ∀ i j, center (src i) = center (src j)) :
    (alignCenters svd true eps src tgt).s = 0 := by
  have hX : centred (Matrix.of fun i => center (src i)) (wmean eps (Matrix.of fun i => center (src i)) none) none = 0 := by
    have hn' : (n : ℝ) ≠ 0 := by exact_mod_cast hn.ne'
    ext i j
    simp only [centred, wmean, Matrix.of_apply, Matrix.zero_apply]
    rw [Finset.sum_congr rfl fun k _ => by rw [h k i]]
    simp only [Finset.sum_const, Finset.card_univ, Fintype.card_fin, nsmul_eq_mul]
    field_simp
    ring
  show (align svd true false eps _ _ n none).s = 0
  rw [align_s, if_pos rfl, hX, transpose_zero, Matrix.zero_mul, smul_zero]
  have hd := hs (0 : Mat)
  set c := svd (0 : Mat)
  have hS : diagonal c.2.1 = 0 := by
    calc diagonal c.2.1 = (c.1ᵀ * c.1) * diagonal c.2.1 * (c.2.2ᵀ * c.2.2) := by rw [hd.orthU, hd.orthV, Matrix.one_mul, Matrix.mul_one]
      _ = c.1ᵀ * (c.1 * diagonal c.2.1 * c.2.2ᵀ) * c.2.2 := by simp only [Matrix.mul_assoc]
      _ = 0 := by rw [← hd.eq, Matrix.mul_zero, Matrix.zero_mul]
  have hS0 : ∀ i, c.2.1 i = 0 := fun i => by
    have := congrFun (congrFun hS i) i
    rwa [diagonal_apply_eq] at this
  simp [hS0]

/-! ## Examples -/

theorem one_rot : IsRot (1 : Mat) := ⟨by simp, by simp⟩

/-- Three cameras with centres `0`, `-e₀`, `-e₁`. -/
def three (i : Fin 3) : Ext := ⟨1, ![![0, 0, 0], ![1, 0, 0], ![0, 1, 0]] i⟩

/-- Turn about the first axis, move, enlarge. -/
def move : Tr := ⟨halfTurn 0, ![1, 2, 3], 2⟩

/-- The cameras moved in this way are found again. -/
example : ∃ svd, SvdOk svd ∧ ∀ i, applyTr (alignExtrinsics svd true (1 / 1000000000) three fun i => applyTr move (three i)) (three i)
    = applyTr move (three i) := by
  obtain ⟨svd, hs⟩ := svdOk_exists (k := 2)
  refine ⟨svd, hs, extrinsics_exact hs true (by norm_num) (by norm_num) three _ (fun i => one_rot) move (halfTurn_rot 0).1 (fun i => rfl) ?_⟩
  rw [if_pos (by decide)]
  have h3 : ∀ f : Fin (2 + 1) → ℝ, ∑ i, f i = f 0 + f 1 + f 2 := fun f => Fin.sum_univ_three f
  have h01 : (![![0, 0, 0], ![1, 0, 0], ![0, 1, 0]] : Fin 3 → Vec) 2 = ![0, 1, 0] := rfl
  have e : (![0, 1, 0] : Vec) 2 = 0 ∧ (![1, 0, 0] : Vec) 2 = 0 ∧ (![0, 0, 0] : Vec) 2 = 0 := ⟨rfl, rfl, rfl⟩
  have e2 : (![0, 1, 0] : Vec) 1 = 1 ∧ (![1, 0, 0] : Vec) 1 = 0 ∧ (![0, 0, 0] : Vec) 1 = 0 := ⟨rfl, rfl, rfl⟩
  have e3 : (![0, 1, 0] : Vec) 0 = 0 ∧ (![1, 0, 0] : Vec) 0 = 1 ∧ (![0, 0, 0] : Vec) 0 = 0 := ⟨rfl, rfl, rfl⟩
  simp only [spread, cross, three, mean, h3, Matrix.one_mulVec, h01, Matrix.cons_val_zero, Matrix.cons_val_one, e, e2, e3]
  norm_num

end

end P3D.CameraAlign
