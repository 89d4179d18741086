/-
Alignment of point clouds: `corresponding_points_alignment`, `ops/points_alignment.py:239-401`, with `wmean`, `ops/utils.py:68-108`.

One batch element with `n` (padded) points of dimension `k + 1`; `ops/points_alignment.py` treats the elements of the batch
independently.  Numbers are real.  `torch.svd` is any function returning a singular value decomposition (`IsSVD`).  Not modelled: the shape
checks and warnings, rounding, `convert_pointclouds_to_tensor`.
-/
import Mathlib.LinearAlgebra.Matrix.Trace
import Mathlib.LinearAlgebra.Matrix.ToLinearEquiv
import Mathlib.LinearAlgebra.Matrix.NonsingularInverse
import Mathlib.Analysis.Real.Sqrt
import Mathlib.LinearAlgebra.Matrix.DotProduct
import Mathlib.Tactic.Linarith
import Mathlib.Tactic.Ring
import Mathlib.Tactic.FieldSimp
import Mathlib.Tactic.FinCases

set_option linter.unusedSectionVars false

namespace P3D.Align

open Matrix

noncomputable section

variable {n k : Nat}

/-- A singular value decomposition as returned by `torch.svd`: of the descending order of the singular values only
that the last is the smallest is used; `A = U diag(S) Vᵀ`. -/
structure IsSVD (A U : Matrix (Fin (k + 1)) (Fin (k + 1)) ℝ) (S : Fin (k + 1) → ℝ) (V : Matrix (Fin (k + 1)) (Fin (k + 1)) ℝ) : Prop where
  orthU : Uᵀ * U = 1
  orthV : Vᵀ * V = 1
  nonneg : ∀ i, 0 ≤ S i
  anti : ∀ i, S (Fin.last k) ≤ S i
  eq : A = U * diagonal S * Vᵀ

/-- `wmean`, ops/utils.py:68-108, over the points. -/
def wmean (eps : ℝ) (x : Matrix (Fin n) (Fin (k + 1)) ℝ) (w : Option (Fin n → ℝ)) : Fin (k + 1) → ℝ :=
  match w with
  | none => fun j => (∑ i, x i j) / n
  | some w => fun j => (∑ i, x i j * w i) / max (∑ i, w i) eps

/-- points_alignment.py:319-326: padding mask of a batch with clouds of different sizes, multiplied by the weights. -/
def effWeights (hetero : Bool) (np : Nat) (w : Option (Fin n → ℝ)) : Option (Fin n → ℝ) :=
  if hetero then
    let mask : Fin n → ℝ := fun i => if i.val < np then 1 else 0
    match w with
    | none => some mask
    | some w => some fun i => mask i * w i
  else w

/-- points_alignment.py:336-344: centred points, multiplied by the weights. -/
def centred (x : Matrix (Fin n) (Fin (k + 1)) ℝ) (μ : Fin (k + 1) → ℝ) (w : Option (Fin n → ℝ)) : Matrix (Fin n) (Fin (k + 1)) ℝ :=
  match w with
  | none => Matrix.of fun i j => x i j - μ j
  | some w => Matrix.of fun i j => (x i j - μ j) * w i

/-- points_alignment.py:340, 345. -/
def totalWeight (eps : ℝ) (np : Nat) (w : Option (Fin n → ℝ)) : ℝ :=
  match w with
  | none => max (np : ℝ) 1
  | some w => max (∑ i, w i) eps

/-- Rotation, translation, scale. -/
structure Sim (k : Nat) where
  R : Matrix (Fin (k + 1)) (Fin (k + 1)) ℝ
  T : Fin (k + 1) → ℝ
  s : ℝ

/-- `corresponding_points_alignment`, points_alignment.py:328-401, for weights `w` that already include the mask. -/
def align (svd : Matrix (Fin (k + 1)) (Fin (k + 1)) ℝ →
      Matrix (Fin (k + 1)) (Fin (k + 1)) ℝ × (Fin (k + 1) → ℝ) × Matrix (Fin (k + 1)) (Fin (k + 1)) ℝ)
    (estimateScale allowReflection : Bool) (eps : ℝ) (X Y : Matrix (Fin n) (Fin (k + 1)) ℝ) (np : Nat) (w : Option (Fin n → ℝ)) : Sim k :=
  let Xmu := wmean eps X w
  let Ymu := wmean eps Y w
  let Xc := centred X Xmu w
  let Yc := centred Y Ymu w
  let tot := totalWeight eps np w
  let cov := tot⁻¹ • (Xcᵀ * Yc)
  let (U, S, V) := svd cov
  let e : Fin (k + 1) → ℝ := fun i => if !allowReflection && i = Fin.last k then (U * Vᵀ).det else 1
  let R := U * diagonal e * Vᵀ
  if estimateScale then
    let traceES := ∑ i, e i * S i
    let Xcov := (∑ i, ∑ j, Xc i j * Xc i j) / tot
    let s := traceES / max Xcov eps
    ⟨R, fun j => Ymu j - s * (Xmu ᵥ* R) j, s⟩
  else ⟨R, fun j => Ymu j - (Xmu ᵥ* R) j, 1⟩

/-- The batch of `corresponding_points_alignment`: the padding mask is used as soon as one cloud of the batch is padded. -/
def alignBatch {b : Nat} (svd : Matrix (Fin (k + 1)) (Fin (k + 1)) ℝ →
      Matrix (Fin (k + 1)) (Fin (k + 1)) ℝ × (Fin (k + 1) → ℝ) × Matrix (Fin (k + 1)) (Fin (k + 1)) ℝ)
    (estimateScale allowReflection : Bool) (eps : ℝ) (X Y : Fin b → Matrix (Fin n) (Fin (k + 1)) ℝ) (np : Fin b → Nat)
    (w : Option (Fin b → Fin n → ℝ)) (e : Fin b) : Sim k :=
  align svd estimateScale allowReflection eps (X e) (Y e) (np e)
    (effWeights (decide (∃ e, np e < n)) (np e) (match w with | none => none | some w => some (w e)))

/-- `_apply_similarity_transform`, points_alignment.py:404-415. -/
def apply (X : Matrix (Fin n) (Fin (k + 1)) ℝ) (t : Sim k) : Matrix (Fin n) (Fin (k + 1)) ℝ :=
  Matrix.of fun i j => t.s * (X * t.R) i j + t.T j

/-! ### Specification -/

/-- Weighted sum of squared distances of the transformed points to the targets. -/
def cost (X Y : Matrix (Fin n) (Fin (k + 1)) ℝ) (w : Fin n → ℝ) (t : Sim k) : ℝ :=
  ∑ i, w i * ∑ j, (t.s * (∑ l, X i l * t.R l j) + t.T j - Y i j) ^ 2

/-- The transforms searched: orthogonal, without reflections unless they are allowed. -/
def Valid (allowReflection : Bool) (R : Matrix (Fin (k + 1)) (Fin (k + 1)) ℝ) : Prop :=
  Rᵀ * R = 1 ∧ (allowReflection = false → R.det = 1)

/-- The weights used (1 if there are none). -/
def weightOf (w : Option (Fin n → ℝ)) (i : Fin n) : ℝ :=
  match w with
  | none => 1
  | some w => w i

/-! ### Orthogonal matrices -/

section Orth

variable {ι : Type} [Fintype ι] [DecidableEq ι]

theorem orth_diag_le {Z : Matrix ι ι ℝ} (h : Z * Zᵀ = 1) (i : ι) : Z i i ≤ 1 := by
  have e := congrFun (congrFun h i) i
  rw [Matrix.mul_apply, Matrix.one_apply_eq] at e
  simp only [Matrix.transpose_apply] at e
  have h1 : Z i i * Z i i ≤ ∑ j, Z i j * Z i j := Finset.single_le_sum (f := fun j => Z i j * Z i j) (fun j _ => mul_self_nonneg _) (Finset.mem_univ i)
  nlinarith

theorem orth_trace_le {Z : Matrix ι ι ℝ} (h : Z * Zᵀ = 1) : Z.trace ≤ Fintype.card ι := by
  unfold Matrix.trace
  calc ∑ i, Z.diag i ≤ ∑ _i : ι, (1 : ℝ) := Finset.sum_le_sum fun i _ => orth_diag_le h i
    _ = Fintype.card ι := by simp

/-- An orthogonal matrix with determinant -1 has trace at most the dimension minus 2. -/
theorem refl_trace_le {Z : Matrix ι ι ℝ} (h : Z * Zᵀ = 1) (hd : Z.det = -1) : Z.trace ≤ Fintype.card ι - 2 := by
  have h' : Zᵀ * Z = 1 := mul_eq_one_comm.mp h
  have hz : (Z + 1).det = 0 := by
    have e : (Z + 1) = Z * (Z + 1)ᵀ := by
      rw [Matrix.transpose_add, Matrix.transpose_one, Matrix.mul_add, h, Matrix.mul_one, add_comm]
    have := congrArg Matrix.det e
    rw [Matrix.det_mul, Matrix.det_transpose, hd] at this
    linarith
  obtain ⟨v, hv, hv0⟩ := Matrix.exists_mulVec_eq_zero_iff.mpr hz
  have hZv : Z *ᵥ v = -v := by
    rw [Matrix.add_mulVec, Matrix.one_mulVec] at hv0
    exact eq_neg_of_add_eq_zero_left hv0
  have hZtv : Zᵀ *ᵥ v = -v := by
    have := congrArg (Zᵀ *ᵥ ·) hZv
    simp only [Matrix.mulVec_mulVec, h', Matrix.one_mulVec, Matrix.mulVec_neg] at this
    rw [← neg_eq_iff_eq_neg] at this
    exact this.symm
  have hq : 0 < v ⬝ᵥ v := by
    have h0 : 0 ≤ v ⬝ᵥ v := Finset.sum_nonneg fun i _ => mul_self_nonneg _
    exact lt_of_le_of_ne h0 fun e => hv (dotProduct_self_eq_zero.mp e.symm)
  set q := v ⬝ᵥ v with hqd
  set W : Matrix ι ι ℝ := Z + (2 / q) • vecMulVec v v with hW
  have hWW : W * Wᵀ = 1 := by
    rw [hW, Matrix.transpose_add, Matrix.transpose_smul, Matrix.transpose_vecMulVec, Matrix.add_mul, Matrix.mul_add, Matrix.mul_add, h,
      Matrix.mul_smul, Matrix.smul_mul, Matrix.smul_mul, Matrix.mul_smul, Matrix.mul_vecMulVec, Matrix.vecMulVec_mul, hZv,
      ← Matrix.mulVec_transpose, Matrix.transpose_transpose, hZv, Matrix.vecMulVec_mul_vecMulVec, ← hqd]
    ext i j
    simp only [Matrix.add_apply, Matrix.smul_apply, Matrix.vecMulVec_apply, Pi.neg_apply, Pi.smul_apply, smul_eq_mul]
    field_simp
    ring
  have ht : Z.trace = W.trace - 2 := by
    rw [hW, Matrix.trace_add, Matrix.trace_smul, Matrix.trace_vecMulVec, ← hqd, smul_eq_mul]
    field_simp
    ring
  rw [ht]
  have := orth_trace_le hWW
  linarith

end Orth

/-- The transform maximizing the correlation: over all orthogonal matrices (without reflections unless allowed), `tr(RᵀA)` is largest at
`U E Vᵀ`. -/
theorem umeyama {A U V : Matrix (Fin (k + 1)) (Fin (k + 1)) ℝ} {S : Fin (k + 1) → ℝ} (h : IsSVD A U S V) (ar : Bool)
    {R : Matrix (Fin (k + 1)) (Fin (k + 1)) ℝ} (hR : Valid ar R) :
    (Rᵀ * A).trace ≤ ∑ i, (if !ar && i = Fin.last k then (U * Vᵀ).det else 1) * S i := by
  have hU' : U * Uᵀ = 1 := mul_eq_one_comm.mp h.orthU
  have hV' : V * Vᵀ = 1 := mul_eq_one_comm.mp h.orthV
  have hR' : R * Rᵀ = 1 := mul_eq_one_comm.mp hR.1
  set Z := Vᵀ * Rᵀ * U with hZ
  have hZZ : Z * Zᵀ = 1 := by
    rw [hZ, Matrix.transpose_mul, Matrix.transpose_mul, Matrix.transpose_transpose, Matrix.transpose_transpose]
    calc Vᵀ * Rᵀ * U * (Uᵀ * (R * V)) = Vᵀ * (Rᵀ * (U * Uᵀ) * R) * V := by simp only [Matrix.mul_assoc]
      _ = 1 := by rw [hU', Matrix.mul_one, hR.1, Matrix.mul_one, h.orthV]
  have ht : (Rᵀ * A).trace = ∑ i, Z i i * S i := by
    rw [h.eq, ← Matrix.mul_assoc, Matrix.trace_mul_comm, ← Matrix.mul_assoc, ← Matrix.mul_assoc, ← hZ]
    simp [Matrix.trace, Matrix.mul_diagonal]
  rw [ht]
  have hsq : ∀ {M : Matrix (Fin (k + 1)) (Fin (k + 1)) ℝ}, Mᵀ * M = 1 → M.det = 1 ∨ M.det = -1 := by
    intro M hM
    have := congrArg Matrix.det hM
    rw [Matrix.det_mul, Matrix.det_transpose, Matrix.det_one] at this
    exact mul_self_eq_one_iff.mp this
  have easy : ∑ i, Z i i * S i ≤ ∑ i, S i :=
    Finset.sum_le_sum fun i _ => by
      have := mul_le_mul_of_nonneg_right (orth_diag_le hZZ i) (h.nonneg i)
      linarith
  cases ar with
  | true => simpa using easy
  | false =>
    have hd1 : R.det = 1 := hR.2 rfl
    have hUV : (U * Vᵀ).det = Z.det := by
      rw [hZ, Matrix.det_mul, Matrix.det_mul, Matrix.det_mul, Matrix.det_transpose, Matrix.det_transpose, hd1]
      ring
    have hZt : Zᵀ * Z = 1 := mul_eq_one_comm.mp hZZ
    rw [hUV]
    rcases hsq hZt with hp | hm
    · rw [hp]; simpa using easy
    · rw [hm]
      have htr := refl_trace_le hZZ hm
      have e1 : ∑ i, (if (!false && decide (i = Fin.last k)) = true then (-1 : ℝ) else 1) * S i = ∑ i, S i - 2 * S (Fin.last k) := by
        have : ∀ i, (if (!false && decide (i = Fin.last k)) = true then (-1 : ℝ) else 1) * S i
            = S i - (if i = Fin.last k then 2 * S i else 0) := by
          intro i
          by_cases hi : i = Fin.last k <;> simp [hi]
          ring
        rw [Finset.sum_congr rfl fun i _ => this i, Finset.sum_sub_distrib, Finset.sum_ite_eq' Finset.univ (Fin.last k)]
        simp
      rw [e1]
      have e2 : S (Fin.last k) * (Fintype.card (Fin (k + 1)) - Z.trace) ≤ ∑ i, (1 - Z i i) * S i := by
        have : S (Fin.last k) * (Fintype.card (Fin (k + 1)) - Z.trace) = ∑ i, (1 - Z i i) * S (Fin.last k) := by
          rw [← Finset.sum_mul, Finset.sum_sub_distrib]
          simp [Matrix.trace]
          ring
        rw [this]
        exact Finset.sum_le_sum fun i _ => mul_le_mul_of_nonneg_left (h.anti i) (by linarith [orth_diag_le hZZ i])
      have e3 : ∑ i, (1 - Z i i) * S i = ∑ i, S i - ∑ i, Z i i * S i := by
        rw [← Finset.sum_sub_distrib]
        exact Finset.sum_congr rfl fun i _ => by ring
      have := mul_le_mul_of_nonneg_left (a := S (Fin.last k)) (show (2 : ℝ) ≤ Fintype.card (Fin (k + 1)) - Z.trace by linarith) (h.nonneg _)
      linarith

/-- The last diagonal entry of `E`, points_alignment.py:371-379. -/
def refl (ar : Bool) (U V : Matrix (Fin (k + 1)) (Fin (k + 1)) ℝ) (i : Fin (k + 1)) : ℝ :=
  if !ar && i = Fin.last k then (U * Vᵀ).det else 1

theorem det_sq {M : Matrix (Fin (k + 1)) (Fin (k + 1)) ℝ} (h : Mᵀ * M = 1) : M.det * M.det = 1 := by
  have := congrArg Matrix.det h
  rwa [Matrix.det_mul, Matrix.det_transpose, Matrix.det_one] at this

theorem det_UV {U V : Matrix (Fin (k + 1)) (Fin (k + 1)) ℝ} (hU : Uᵀ * U = 1) (hV : Vᵀ * V = 1) :
    (U * Vᵀ).det * (U * Vᵀ).det = 1 := by
  rw [Matrix.det_mul, Matrix.det_transpose]
  have := det_sq hU
  have := det_sq hV
  grind

theorem refl_sq {U V : Matrix (Fin (k + 1)) (Fin (k + 1)) ℝ} (hU : Uᵀ * U = 1) (hV : Vᵀ * V = 1) (ar : Bool) (i : Fin (k + 1)) :
    refl ar U V i * refl ar U V i = 1 := by
  unfold refl
  split
  · exact det_UV hU hV
  · ring

theorem rot_valid {A U V : Matrix (Fin (k + 1)) (Fin (k + 1)) ℝ} {S : Fin (k + 1) → ℝ} (h : IsSVD A U S V) (ar : Bool) :
    Valid ar (U * diagonal (refl ar U V) * Vᵀ) := by
  constructor
  · rw [Matrix.transpose_mul, Matrix.transpose_mul, Matrix.transpose_transpose, Matrix.diagonal_transpose]
    calc V * (diagonal (refl ar U V) * Uᵀ) * (U * diagonal (refl ar U V) * Vᵀ)
        = V * (diagonal (refl ar U V) * (Uᵀ * U) * diagonal (refl ar U V)) * Vᵀ := by simp only [Matrix.mul_assoc]
      _ = V * Vᵀ := by
        rw [h.orthU, Matrix.mul_one, Matrix.diagonal_mul_diagonal]
        simp [refl_sq h.orthU h.orthV]
      _ = 1 := mul_eq_one_comm.mp h.orthV
  · rintro rfl
    rw [Matrix.det_mul, Matrix.det_mul, Matrix.det_diagonal, Matrix.det_transpose]
    have hp : ∏ i, refl false U V i = (U * Vᵀ).det := by
      unfold refl
      simp only [Bool.not_false, Bool.true_and, decide_eq_true_eq]
      rw [Finset.prod_ite_eq' Finset.univ (Fin.last k)]
      simp
    rw [hp]
    have := det_UV h.orthU h.orthV
    rw [Matrix.det_mul, Matrix.det_transpose] at this ⊢
    linarith

theorem rot_trace {A U V : Matrix (Fin (k + 1)) (Fin (k + 1)) ℝ} {S : Fin (k + 1) → ℝ} (h : IsSVD A U S V) (ar : Bool) :
    ((U * diagonal (refl ar U V) * Vᵀ)ᵀ * A).trace = ∑ i, refl ar U V i * S i := by
  rw [Matrix.transpose_mul, Matrix.transpose_mul, Matrix.transpose_transpose, Matrix.diagonal_transpose, h.eq]
  have : V * (diagonal (refl ar U V) * Uᵀ) * (U * diagonal S * Vᵀ) = V * (diagonal (refl ar U V) * (Uᵀ * U) * diagonal S * Vᵀ) := by
    simp only [Matrix.mul_assoc]
  rw [this, h.orthU, Matrix.trace_mul_comm, Matrix.mul_assoc, h.orthV, Matrix.mul_one, Matrix.mul_one, Matrix.diagonal_mul_diagonal,
    Matrix.trace_diagonal]

/-- Squared Frobenius norm. -/
def sq (P : Matrix (Fin n) (Fin (k + 1)) ℝ) : ℝ := ∑ i, ∑ j, P i j * P i j

theorem sq_nonneg' (P : Matrix (Fin n) (Fin (k + 1)) ℝ) : 0 ≤ sq P :=
  Finset.sum_nonneg fun _ _ => Finset.sum_nonneg fun _ _ => mul_self_nonneg _

theorem sq_eq_trace (P : Matrix (Fin n) (Fin (k + 1)) ℝ) : sq P = (Pᵀ * P).trace := by
  unfold sq Matrix.trace
  simp only [Matrix.diag_apply, Matrix.mul_apply, Matrix.transpose_apply]
  rw [Finset.sum_comm]

theorem sq_rot (P Q : Matrix (Fin n) (Fin (k + 1)) ℝ) {R : Matrix (Fin (k + 1)) (Fin (k + 1)) ℝ} (hR : Rᵀ * R = 1) (s : ℝ) :
    sq (s • (P * R) - Q) = s ^ 2 * sq P - 2 * s * (Rᵀ * (Pᵀ * Q)).trace + sq Q := by
  have hR' : R * Rᵀ = 1 := mul_eq_one_comm.mp hR
  have e1 : ((P * R)ᵀ * (P * R)).trace = sq P := by
    rw [sq_eq_trace, Matrix.transpose_mul, Matrix.mul_assoc, Matrix.trace_mul_comm, ← Matrix.mul_assoc, Matrix.mul_assoc, hR', Matrix.mul_one]
  have e2 : (Qᵀ * (P * R)).trace = (Rᵀ * (Pᵀ * Q)).trace := by
    rw [← Matrix.trace_transpose, Matrix.transpose_mul, Matrix.transpose_mul, Matrix.transpose_transpose, Matrix.mul_assoc]
  have e3 : ((P * R)ᵀ * Q).trace = (Rᵀ * (Pᵀ * Q)).trace := by
    rw [Matrix.transpose_mul, Matrix.mul_assoc]
  rw [sq_eq_trace (s • (P * R) - Q), Matrix.transpose_sub, Matrix.transpose_smul, Matrix.sub_mul, Matrix.mul_sub, Matrix.mul_sub,
    Matrix.smul_mul, Matrix.smul_mul, Matrix.mul_smul, Matrix.mul_smul, Matrix.trace_sub, Matrix.trace_sub, Matrix.trace_sub]
  simp only [Matrix.trace_smul, smul_eq_mul, e1, e2, e3, sq_eq_trace Q]
  ring

/-! ### The alignment -/

section Align

variable (svd : Matrix (Fin (k + 1)) (Fin (k + 1)) ℝ →
      Matrix (Fin (k + 1)) (Fin (k + 1)) ℝ × (Fin (k + 1) → ℝ) × Matrix (Fin (k + 1)) (Fin (k + 1)) ℝ)

/-- `torch.svd` returns a singular value decomposition. -/
def SvdOk : Prop := ∀ A, IsSVD A (svd A).1 (svd A).2.1 (svd A).2.2

/-- Weighted variance of the points, compared with `eps` in the estimate of the scale (specification; squared weights). -/
def variance (eps : ℝ) (X : Matrix (Fin n) (Fin (k + 1)) ℝ) (np : Nat) (w : Option (Fin n → ℝ)) : ℝ :=
  (∑ i, weightOf w i ^ 2 * ∑ j, (X i j - wmean eps X w j) ^ 2) / totalWeight eps np w

/-- Admissible transforms: valid rotations with non-negative scale (dimension one without reflections: any scale), scale one unless it is
estimated. -/
def Admissible (estimateScale ar : Bool) (t : Sim k) : Prop :=
  Valid ar t.R ∧ (0 ≤ t.s ∨ k = 0 ∧ ar = false) ∧ (estimateScale = false → t.s = 1)

theorem centred_eq (x : Matrix (Fin n) (Fin (k + 1)) ℝ) (μ : Fin (k + 1) → ℝ) (w : Option (Fin n → ℝ)) (i : Fin n) (j : Fin (k + 1)) :
    centred x μ w i j = (x i j - μ j) * weightOf w i := by
  cases w <;> simp [centred, weightOf]

theorem tot_pos {eps : ℝ} (he : 0 < eps) (np : Nat) (w : Option (Fin n → ℝ)) : 0 < totalWeight eps np w := by
  cases w with
  | none => exact lt_of_lt_of_le one_pos (le_max_right _ _)
  | some w => exact lt_of_lt_of_le he (le_max_right _ _)

theorem variance_eq (eps : ℝ) (X : Matrix (Fin n) (Fin (k + 1)) ℝ) (np : Nat) (w : Option (Fin n → ℝ)) :
    variance eps X np w = sq (centred X (wmean eps X w) w) / totalWeight eps np w := by
  unfold variance sq
  congr 1
  refine Finset.sum_congr rfl fun i _ => ?_
  rw [Finset.mul_sum]
  refine Finset.sum_congr rfl fun j _ => ?_
  rw [centred_eq]
  ring

/-- The error of the centred points that the estimate of rotation and scale minimizes: the weights enter squared. -/
def centredCost (eps : ℝ) (X Y : Matrix (Fin n) (Fin (k + 1)) ℝ) (w : Option (Fin n → ℝ)) (R : Matrix (Fin (k + 1)) (Fin (k + 1)) ℝ) (s : ℝ) : ℝ :=
  ∑ i, weightOf w i ^ 2 * ∑ j, (s * (∑ l, (X i l - wmean eps X w l) * R l j) - (Y i j - wmean eps Y w j)) ^ 2

theorem centredCost_eq (eps : ℝ) (X Y : Matrix (Fin n) (Fin (k + 1)) ℝ) (w : Option (Fin n → ℝ)) (R : Matrix (Fin (k + 1)) (Fin (k + 1)) ℝ)
    (s : ℝ) : centredCost eps X Y w R s = sq (s • (centred X (wmean eps X w) w * R) - centred Y (wmean eps Y w) w) := by
  unfold centredCost sq
  refine Finset.sum_congr rfl fun i _ => ?_
  rw [Finset.mul_sum]
  refine Finset.sum_congr rfl fun j _ => ?_
  rw [Matrix.sub_apply, Matrix.smul_apply, Matrix.mul_apply, centred_eq, smul_eq_mul]
  have : ∑ l, centred X (wmean eps X w) w i l * R l j = weightOf w i * ∑ l, (X i l - wmean eps X w l) * R l j := by
    rw [Finset.mul_sum]
    exact Finset.sum_congr rfl fun l _ => by rw [centred_eq]; ring
  rw [this]
  ring

theorem align_R (es ar : Bool) (eps : ℝ) (X Y : Matrix (Fin n) (Fin (k + 1)) ℝ) (np : Nat) (w : Option (Fin n → ℝ)) :
    let c := svd ((totalWeight eps np w)⁻¹ • ((centred X (wmean eps X w) w)ᵀ * centred Y (wmean eps Y w) w))
    (align svd es ar eps X Y np w).R = c.1 * diagonal (refl ar c.1 c.2.2) * c.2.2ᵀ := by
  cases es <;> rfl

theorem align_s (es ar : Bool) (eps : ℝ) (X Y : Matrix (Fin n) (Fin (k + 1)) ℝ) (np : Nat) (w : Option (Fin n → ℝ)) :
    let c := svd ((totalWeight eps np w)⁻¹ • ((centred X (wmean eps X w) w)ᵀ * centred Y (wmean eps Y w) w))
    (align svd es ar eps X Y np w).s
      = if es then (∑ i, refl ar c.1 c.2.2 i * c.2.1 i) / max (variance eps X np w) eps else 1 := by
  intro c
  rw [variance_eq]
  cases es <;> rfl

theorem align_T (es ar : Bool) (eps : ℝ) (X Y : Matrix (Fin n) (Fin (k + 1)) ℝ) (np : Nat) (w : Option (Fin n → ℝ)) (j : Fin (k + 1)) :
    (align svd es ar eps X Y np w).T j = wmean eps Y w j
      - (align svd es ar eps X Y np w).s * ∑ l, wmean eps X w l * (align svd es ar eps X Y np w).R l j := by
  cases es
  · show _ = _ - 1 * _
    rw [one_mul]; rfl
  · rfl

variable {svd}

/-- The returned transform is admissible. -/
theorem align_admissible (hs : SvdOk svd) (es ar : Bool) {eps : ℝ} (he : 0 < eps) (X Y : Matrix (Fin n) (Fin (k + 1)) ℝ) (np : Nat)
    (w : Option (Fin n → ℝ)) : Admissible es ar (align svd es ar eps X Y np w) := by
  refine ⟨?_, ?_, ?_⟩
  · rw [align_R]; exact rot_valid (hs _) ar
  · rw [align_s]
    cases es with
    | false => left; simp
    | true =>
      simp only [if_true]
      set c := svd ((totalWeight eps np w)⁻¹ • ((centred X (wmean eps X w) w)ᵀ * centred Y (wmean eps Y w) w)) with hc
      have h := hs ((totalWeight eps np w)⁻¹ • ((centred X (wmean eps X w) w)ᵀ * centred Y (wmean eps Y w) w))
      rw [← hc] at h
      have hmax : 0 < max (variance eps X np w) eps := lt_of_lt_of_le he (le_max_right _ _)
      by_cases h0 : k = 0 ∧ ar = false
      · right; exact h0
      left
      refine div_nonneg ?_ hmax.le
      cases ar with
      | true => exact Finset.sum_nonneg fun i _ => by simpa [refl] using h.nonneg i
      | false =>
        have hk : k ≠ 0 := fun e => h0 ⟨e, rfl⟩
        obtain ⟨m, rfl⟩ := Nat.exists_eq_succ_of_ne_zero hk
        rw [Fin.sum_univ_castSucc, Fin.sum_univ_succ]
        have hd : ∀ x : ℝ, x * x = 1 → -1 ≤ x := fun x hx => by nlinarith
        have hl : -1 ≤ refl false c.1 c.2.2 (Fin.last (m + 1)) := hd _ (refl_sq h.orthU h.orthV _ _)
        have hlast := h.anti (Fin.castSucc 0)
        have hn := h.nonneg (Fin.last (m + 1))
        have hother : ∀ i : Fin (m + 1), refl false c.1 c.2.2 i.castSucc = 1 := fun i => by
          simp [refl, Fin.ext_iff, i.isLt.ne]
        simp only [hother, one_mul]
        have : 0 ≤ ∑ i : Fin m, c.2.1 (Fin.castSucc i.succ) := Finset.sum_nonneg fun i _ => h.nonneg _
        nlinarith
  · rintro rfl; rw [align_s]; simp

/-- Rotation and scale minimize the (squared weight) error of the centred points over all admissible transforms; with `estimate_scale` the
variance of the points has to be at least `eps`. -/
theorem align_centred_min (hs : SvdOk svd) (es ar : Bool) {eps : ℝ} (he : 0 < eps) (X Y : Matrix (Fin n) (Fin (k + 1)) ℝ) (np : Nat)
    (w : Option (Fin n → ℝ)) (hv : es = true → eps ≤ variance eps X np w) (t : Sim k) (ht : Admissible es ar t) :
    centredCost eps X Y w (align svd es ar eps X Y np w).R (align svd es ar eps X Y np w).s ≤ centredCost eps X Y w t.R t.s := by
  have hadm := align_admissible hs es ar he X Y np w
  rw [centredCost_eq, centredCost_eq, sq_rot _ _ hadm.1.1, sq_rot _ _ ht.1.1]
  have hR := align_R svd es ar eps X Y np w
  have hS := align_s svd es ar eps X Y np w
  set P := centred X (wmean eps X w) w
  set Q := centred Y (wmean eps Y w) w
  set tot := totalWeight eps np w with htot
  have htp : 0 < tot := tot_pos he np w
  dsimp only at hR hS
  set A := tot⁻¹ • (Pᵀ * Q) with hA
  have hPQ : Pᵀ * Q = tot • A := by rw [hA, smul_smul, mul_inv_cancel₀ htp.ne', one_smul]
  have h := hs A
  set c := svd A
  set G := ∑ i, refl ar c.1 c.2.2 i * c.2.1 i with hG
  have hgR : ((align svd es ar eps X Y np w).Rᵀ * (Pᵀ * Q)).trace = tot * G := by
    rw [hPQ, Matrix.mul_smul, Matrix.trace_smul, smul_eq_mul, hR, rot_trace h ar]
  have hgt : (t.Rᵀ * (Pᵀ * Q)).trace = tot * (t.Rᵀ * A).trace := by
    rw [hPQ, Matrix.mul_smul, Matrix.trace_smul, smul_eq_mul]
  have hle : (t.Rᵀ * A).trace ≤ G := umeyama h ar ht.1
  rw [hgR, hgt]
  -- replacing the rotation can only help
  have hstep : t.s ^ 2 * sq P - 2 * t.s * (tot * G) ≤ t.s ^ 2 * sq P - 2 * t.s * (tot * (t.Rᵀ * A).trace) := by
    rcases ht.2.1 with h0 | ⟨rfl, rfl⟩
    · have := mul_le_mul_of_nonneg_left (mul_le_mul_of_nonneg_left hle htp.le) h0
      linarith
    · have e : t.R = (align svd es false eps X Y np w).R := by
        have d1 := ht.1.2 rfl
        have d2 := hadm.1.2 rfl
        rw [Matrix.det_fin_one] at d1 d2
        ext i j
        rw [show i = 0 from Fin.fin_one_eq_zero i, show j = 0 from Fin.fin_one_eq_zero j, d1, d2]
      have : (t.Rᵀ * A).trace = G := by rw [e, hR, rot_trace h false]
      rw [this]
  refine le_trans ?_ (add_le_add_left hstep _)
  refine add_le_add_left ?_ _
  cases es with
  | false => 
    rw [hS, ht.2.2 rfl]
    simp
  | true =>
    have hv' := hv rfl
    rw [max_eq_left hv'] at hS
    simp only [if_true] at hS
    have hvar : sq P = tot * variance eps X np w := by
      rw [variance_eq, ← htot, mul_div_cancel₀ _ htp.ne']
    have hvp : 0 < variance eps X np w := lt_of_lt_of_le he hv'
    rw [hvar, hS]
    set v := variance eps X np w
    have e1 : (G / v) ^ 2 * (tot * v) - 2 * (G / v) * (tot * G) = - (tot * G ^ 2 / v) := by field_simp; ring
    rw [e1]
    have e2 : t.s ^ 2 * (tot * v) - 2 * t.s * (tot * G) + tot * G ^ 2 / v = tot / v * (t.s * v - G) ^ 2 := by field_simp; ring
    have : 0 ≤ tot / v * (t.s * v - G) ^ 2 := mul_nonneg (div_nonneg htp.le hvp.le) (sq_nonneg _)
    linarith

/-- The weighted means are defined without clamping: at least one point, or weights with sum at least `eps`. -/
def MeanOk (eps : ℝ) (w : Option (Fin n → ℝ)) : Prop :=
  match w with
  | none => 0 < n
  | some w => eps ≤ ∑ i, w i

theorem wmean_total {eps : ℝ} (he : 0 < eps) {w : Option (Fin n → ℝ)} (hw : MeanOk eps w) (x : Matrix (Fin n) (Fin (k + 1)) ℝ) (j : Fin (k + 1)) :
    (∑ i, weightOf w i) * wmean eps x w j = ∑ i, weightOf w i * x i j := by
  cases w with
  | none =>
    have : (n : ℝ) ≠ 0 := by exact_mod_cast (show 0 < n from hw).ne'
    simp only [weightOf, wmean, Finset.sum_const, Finset.card_univ, Fintype.card_fin, nsmul_eq_mul, mul_one, one_mul]
    field_simp
  | some w =>
    have h : eps ≤ ∑ i, w i := hw
    have hp : (∑ i, w i) ≠ 0 := (lt_of_lt_of_le he h).ne'
    simp only [weightOf, wmean, max_eq_left h]
    rw [mul_div_cancel₀ _ hp]
    exact Finset.sum_congr rfl fun i _ => mul_comm _ _

theorem total_pos {eps : ℝ} (he : 0 < eps) {w : Option (Fin n → ℝ)} (hw : MeanOk eps w) : 0 < ∑ i, weightOf w i := by
  cases w with
  | none => simpa [weightOf] using (show 0 < n from hw)
  | some w => exact lt_of_lt_of_le he hw

theorem centred_sum {eps : ℝ} (he : 0 < eps) {w : Option (Fin n → ℝ)} (hw : MeanOk eps w) (x : Matrix (Fin n) (Fin (k + 1)) ℝ) (j : Fin (k + 1)) :
    ∑ i, weightOf w i * (x i j - wmean eps x w j) = 0 := by
  simp only [mul_sub]
  rw [Finset.sum_sub_distrib, ← Finset.sum_mul, wmean_total he hw, sub_self]

theorem cost_decomp {eps : ℝ} (he : 0 < eps) {w : Option (Fin n → ℝ)} (hw : MeanOk eps w) (X Y : Matrix (Fin n) (Fin (k + 1)) ℝ) (t : Sim k) :
    cost X Y (weightOf w) t
      = ∑ i, weightOf w i * ∑ j, (t.s * (∑ l, (X i l - wmean eps X w l) * t.R l j) - (Y i j - wmean eps Y w j)) ^ 2
        + (∑ i, weightOf w i) * ∑ j, (t.s * (∑ l, wmean eps X w l * t.R l j) + t.T j - wmean eps Y w j) ^ 2 := by
  set a : Fin n → Fin (k + 1) → ℝ := fun i j => t.s * (∑ l, (X i l - wmean eps X w l) * t.R l j) - (Y i j - wmean eps Y w j) with ha
  set δ : Fin (k + 1) → ℝ := fun j => t.s * (∑ l, wmean eps X w l * t.R l j) + t.T j - wmean eps Y w j with hδ
  have hsum : ∀ j, ∑ i, weightOf w i * a i j = 0 := by
    intro j
    have e : ∀ i, weightOf w i * a i j = t.s * (∑ l, t.R l j * (weightOf w i * (X i l - wmean eps X w l)))
        - weightOf w i * (Y i j - wmean eps Y w j) := by
      intro i
      rw [ha]
      have : ∑ l, t.R l j * (weightOf w i * (X i l - wmean eps X w l)) = weightOf w i * ∑ l, (X i l - wmean eps X w l) * t.R l j := by
        rw [Finset.mul_sum]
        exact Finset.sum_congr rfl fun l _ => by ring
      rw [this]
      ring
    rw [Finset.sum_congr rfl fun i _ => e i, Finset.sum_sub_distrib, centred_sum he hw Y j, ← Finset.mul_sum, Finset.sum_comm]
    simp only [← Finset.mul_sum, centred_sum he hw X, mul_zero, Finset.sum_const_zero, sub_zero]
  have hcell : ∀ i j, t.s * (∑ l, X i l * t.R l j) + t.T j - Y i j = a i j + δ j := by
    intro i j
    simp only [ha, hδ, sub_mul, Finset.sum_sub_distrib]
    ring
  unfold cost
  have e1 : ∀ i, weightOf w i * ∑ j, (t.s * (∑ l, X i l * t.R l j) + t.T j - Y i j) ^ 2
      = weightOf w i * ∑ j, a i j ^ 2 + ∑ j, 2 * δ j * (weightOf w i * a i j) + weightOf w i * ∑ j, δ j ^ 2 := by
    intro i
    simp only [hcell]
    simp only [add_sq, Finset.sum_add_distrib, mul_add, Finset.mul_sum]
    congr 2
    exact Finset.sum_congr rfl fun j _ => by ring
  rw [Finset.sum_congr rfl fun i _ => e1 i, Finset.sum_add_distrib, Finset.sum_add_distrib, ← Finset.sum_mul]
  have e2 : ∑ i, ∑ j, 2 * δ j * (weightOf w i * a i j) = 0 := by
    rw [Finset.sum_comm]
    simp only [← Finset.mul_sum, hsum, mul_zero, Finset.sum_const_zero]
  rw [e2, add_zero]

/-- The translation is optimal for the returned rotation and scale, for all weights. -/
theorem align_translation_min (es ar : Bool) {eps : ℝ} (he : 0 < eps) (X Y : Matrix (Fin n) (Fin (k + 1)) ℝ)
    (np : Nat) {w : Option (Fin n → ℝ)} (hw : MeanOk eps w) (T : Fin (k + 1) → ℝ) :
    let t := align svd es ar eps X Y np w
    cost X Y (weightOf w) t ≤ cost X Y (weightOf w) ⟨t.R, T, t.s⟩ := by
  intro t
  rw [cost_decomp he hw, cost_decomp he hw]
  refine add_le_add_right ?_ _
  refine mul_le_mul_of_nonneg_left ?_ (total_pos he hw).le
  have h0 : ∀ j, t.s * (∑ l, wmean eps X w l * t.R l j) + t.T j - wmean eps Y w j = 0 := by
    intro j
    have := align_T svd es ar eps X Y np w j
    change t.T j = wmean eps Y w j - t.s * _ at this
    rw [this]
    ring
  simp only [h0]
  simpa using Finset.sum_nonneg fun j _ => sq_nonneg _

/-- If all non-zero weights are equal (in particular without weights, or with padding masks), the returned transform has the smallest weighted
sum of squared distances among all admissible similarity transforms. -/
theorem align_min (hs : SvdOk svd) (es ar : Bool) {eps : ℝ} (he : 0 < eps) (X Y : Matrix (Fin n) (Fin (k + 1)) ℝ) (np : Nat)
    {w : Option (Fin n → ℝ)} (hw : MeanOk eps w) {c : ℝ} (hc : 0 < c) (hwc : ∀ i, weightOf w i = 0 ∨ weightOf w i = c)
    (hv : es = true → eps ≤ variance eps X np w) (t : Sim k) (ht : Admissible es ar t) :
    cost X Y (weightOf w) (align svd es ar eps X Y np w) ≤ cost X Y (weightOf w) t := by
  have hmin := align_centred_min hs es ar he X Y np w hv t ht
  have hconv : ∀ (R : Matrix (Fin (k + 1)) (Fin (k + 1)) ℝ) (s : ℝ), centredCost eps X Y w R s
      = c * ∑ i, weightOf w i * ∑ j, (s * (∑ l, (X i l - wmean eps X w l) * R l j) - (Y i j - wmean eps Y w j)) ^ 2 := by
    intro R s
    unfold centredCost
    rw [Finset.mul_sum]
    refine Finset.sum_congr rfl fun i _ => ?_
    rcases hwc i with h | h <;> rw [h] <;> ring
  rw [hconv, hconv] at hmin
  have hmin := le_of_mul_le_mul_left hmin hc
  rw [cost_decomp he hw, cost_decomp he hw]
  have h0 : ∀ j, (align svd es ar eps X Y np w).s * (∑ l, wmean eps X w l * (align svd es ar eps X Y np w).R l j)
      + (align svd es ar eps X Y np w).T j - wmean eps Y w j = 0 := by
    intro j
    rw [align_T svd es ar eps X Y np w j]
    ring
  simp only [h0]
  have : 0 ≤ (∑ i, weightOf w i) * ∑ j, (t.s * (∑ l, wmean eps X w l * t.R l j) + t.T j - wmean eps Y w j) ^ 2 :=
    mul_nonneg (total_pos he hw).le (Finset.sum_nonneg fun j _ => sq_nonneg _)
  simp only [ne_eq, OfNat.ofNat_ne_zero, not_false_eq_true, zero_pow, Finset.sum_const_zero, mul_zero, add_zero]
  linarith

/-- Exact recovery, for all weights: if the points with non-zero weight correspond under some admissible transform, the returned transform
maps each of them exactly onto its target. -/
theorem align_exact (hs : SvdOk svd) (es ar : Bool) {eps : ℝ} (he : 0 < eps) (X Y : Matrix (Fin n) (Fin (k + 1)) ℝ) (np : Nat)
    {w : Option (Fin n → ℝ)} (hw : MeanOk eps w) (hv : es = true → eps ≤ variance eps X np w) (t : Sim k) (ht : Admissible es ar t)
    (hY : ∀ i, weightOf w i ≠ 0 → ∀ j, Y i j = t.s * (∑ l, X i l * t.R l j) + t.T j) (i : Fin n) (hi : weightOf w i ≠ 0) (j : Fin (k + 1)) :
    apply X (align svd es ar eps X Y np w) i j = Y i j := by
  have hmin := align_centred_min hs es ar he X Y np w hv t ht
  have hμ : ∀ j, wmean eps Y w j = t.s * (∑ l, wmean eps X w l * t.R l j) + t.T j := by
    intro j
    have hW := (total_pos he hw).ne'
    apply mul_left_cancel₀ hW
    rw [wmean_total he hw, mul_add, ← mul_assoc, mul_comm _ t.s, mul_assoc, Finset.mul_sum]
    have e : ∀ i, weightOf w i * Y i j = t.s * (∑ l, weightOf w i * X i l * t.R l j) + weightOf w i * t.T j := by
      intro i
      by_cases h : weightOf w i = 0
      · simp [h]
      · rw [hY i h j]
        have : ∑ l, weightOf w i * X i l * t.R l j = weightOf w i * ∑ l, X i l * t.R l j := by
          rw [Finset.mul_sum]; exact Finset.sum_congr rfl fun l _ => by ring
        rw [this]; ring
    rw [Finset.sum_congr rfl fun i _ => e i, Finset.sum_add_distrib, ← Finset.sum_mul, ← Finset.mul_sum, Finset.sum_comm]
    congr 2
    refine Finset.sum_congr rfl fun l _ => ?_
    rw [← mul_assoc, wmean_total he hw, Finset.sum_mul]
  have hzero : centredCost eps X Y w t.R t.s = 0 := by
    unfold centredCost
    refine Finset.sum_eq_zero fun i _ => ?_
    by_cases h : weightOf w i = 0
    · simp [h]
    · have : ∀ j, t.s * (∑ l, (X i l - wmean eps X w l) * t.R l j) - (Y i j - wmean eps Y w j) = 0 := by
        intro j
        rw [hY i h j, hμ j]
        simp only [sub_mul, Finset.sum_sub_distrib]
        ring
      simp [this]
  rw [hzero] at hmin
  unfold centredCost at hmin
  have hnn : ∀ i ∈ Finset.univ, 0 ≤ weightOf w i ^ 2 * ∑ j, ((align svd es ar eps X Y np w).s
      * (∑ l, (X i l - wmean eps X w l) * (align svd es ar eps X Y np w).R l j) - (Y i j - wmean eps Y w j)) ^ 2 :=
    fun i _ => mul_nonneg (sq_nonneg _) (Finset.sum_nonneg fun j _ => sq_nonneg _)
  have hz := (Finset.sum_eq_zero_iff_of_nonneg hnn).mp (le_antisymm hmin (Finset.sum_nonneg hnn)) i (Finset.mem_univ i)
  have hz' := (mul_eq_zero.mp hz).resolve_left (pow_ne_zero 2 hi)
  have hz'' := (Finset.sum_eq_zero_iff_of_nonneg (fun j _ => sq_nonneg _)).mp hz' j (Finset.mem_univ j)
  have hz3 := pow_eq_zero_iff (two_ne_zero) |>.mp hz''
  unfold apply
  rw [Matrix.of_apply, align_T, Matrix.mul_apply]
  simp only [sub_mul, Finset.sum_sub_distrib] at hz3
  linarith

/-- Three points of the plane, turned by a right angle and moved: the transform found maps the second onto its target. -/
example {svd : Matrix (Fin (1 + 1)) (Fin (1 + 1)) ℝ →
      Matrix (Fin (1 + 1)) (Fin (1 + 1)) ℝ × (Fin (1 + 1) → ℝ) × Matrix (Fin (1 + 1)) (Fin (1 + 1)) ℝ} (hs : SvdOk svd) :
    apply (!![0, 0; 1, 0; 0, 2] : Matrix (Fin 3) (Fin (1 + 1)) ℝ)
      (align svd false false (1 / 1000000000) !![0, 0; 1, 0; 0, 2] !![3, 4; 3, 5; 1, 4] 3 none) 1 1 = 5 := by
  have hR : Valid false (!![0, 1; -1, 0] : Matrix (Fin (1 + 1)) (Fin (1 + 1)) ℝ) := by
    constructor
    · ext i j
      fin_cases i <;> fin_cases j <;> simp [Matrix.mul_apply]
    · intro _
      rw [Matrix.det_fin_two]
      simp
  have hsum : ∀ f : Fin (1 + 1) → ℝ, ∑ i, f i = f 0 + f 1 := fun f => Fin.sum_univ_two f
  exact align_exact (w := none) hs false false (by norm_num) _ _ 3 (by simp [MeanOk]) (by simp) ⟨!![0, 1; -1, 0], ![3, 4], 1⟩
    ⟨hR, Or.inl zero_le_one, fun _ => rfl⟩ (fun i _ j => by fin_cases i <;> fin_cases j <;> norm_num [hsum]) 1 (by simp [weightOf]) 1

/-! ### Padding -/

theorem sum_mask {m : Nat} (h : m ≤ n) (f : Fin n → ℝ) :
    ∑ i : Fin n, (if i.val < m then f i else 0) = ∑ i : Fin m, f (Fin.castLE h i) := by
  obtain ⟨d, rfl⟩ := Nat.exists_eq_add_of_le h
  rw [Fin.sum_univ_add]
  have e : ∀ i : Fin d, (if (Fin.natAdd m i).val < m then f (Fin.natAdd m i) else 0) = 0 := fun i => by simp
  rw [Finset.sum_congr rfl fun i _ => e i, Finset.sum_const_zero, add_zero]
  exact Finset.sum_congr rfl fun i _ => by simp; rfl

variable (svd) in
/-- The part of `align` that depends on the points only through their statistics. -/
def assemble (es ar : Bool) (eps : ℝ) (Xmu Ymu : Fin (k + 1) → ℝ) (cov : Matrix (Fin (k + 1)) (Fin (k + 1)) ℝ) (Xcov : ℝ) : Sim k :=
  let c := svd cov
  let R := c.1 * diagonal (refl ar c.1 c.2.2) * c.2.2ᵀ
  if es then
    let s := (∑ i, refl ar c.1 c.2.2 i * c.2.1 i) / max Xcov eps
    ⟨R, fun j => Ymu j - s * (Xmu ᵥ* R) j, s⟩
  else ⟨R, fun j => Ymu j - (Xmu ᵥ* R) j, 1⟩

theorem align_assemble (es ar : Bool) (eps : ℝ) (X Y : Matrix (Fin n) (Fin (k + 1)) ℝ) (np : Nat) (w : Option (Fin n → ℝ)) :
    align svd es ar eps X Y np w = assemble svd es ar eps (wmean eps X w) (wmean eps Y w)
      ((totalWeight eps np w)⁻¹ • ((centred X (wmean eps X w) w)ᵀ * centred Y (wmean eps Y w) w))
      (sq (centred X (wmean eps X w) w) / totalWeight eps np w) := rfl

/-- The first `m` points. -/
def trunc {m : Nat} (h : m ≤ n) (X : Matrix (Fin n) (Fin (k + 1)) ℝ) : Matrix (Fin m) (Fin (k + 1)) ℝ := Matrix.of fun i => X (Fin.castLE h i)

/-- The weights of the first `m` points. -/
def truncW {m : Nat} (h : m ≤ n) (w : Option (Fin n → ℝ)) : Option (Fin m → ℝ) :=
  match w with
  | none => none
  | some w => some fun i => w (Fin.castLE h i)

theorem effWeights_weightOf {m : Nat} (w : Option (Fin n → ℝ)) (i : Fin n) :
    weightOf (effWeights true m w) i = if i.val < m then weightOf w i else 0 := by
  cases w <;> simp [effWeights, weightOf]

theorem align_padding {eps : ℝ} (he1 : eps ≤ 1) (es ar : Bool) (X Y : Matrix (Fin n) (Fin (k + 1)) ℝ) {m : Nat} (h : m ≤ n)
    (hm : 0 < m) (w : Option (Fin n → ℝ)) :
    align svd es ar eps X Y m (effWeights true m w) = align svd es ar eps (trunc h X) (trunc h Y) m (truncW h w) := by
  have hone : (1 : ℝ) ≤ m := by exact_mod_cast hm
  have hmean : ∀ Z : Matrix (Fin n) (Fin (k + 1)) ℝ, wmean eps Z (effWeights true m w) = wmean eps (trunc h Z) (truncW h w) := by
    intro Z
    funext j
    cases w with
    | none =>
      simp only [effWeights, wmean, truncW, trunc, Matrix.of_apply, if_true, mul_ite, mul_one, mul_zero]
      rw [sum_mask h, sum_mask h (fun _ => 1)]
      simp [max_eq_left (le_trans he1 hone)]
    | some w =>
      simp only [effWeights, wmean, truncW, trunc, Matrix.of_apply, if_true, mul_ite, ite_mul, one_mul, zero_mul, mul_zero]
      rw [sum_mask h (fun i => Z i j * w i), sum_mask h w]
  have htot : totalWeight eps m (effWeights true m w) = totalWeight eps m (truncW h w) := by
    cases w with
    | none =>
      simp only [effWeights, totalWeight, truncW, if_true]
      rw [sum_mask h (fun _ => 1)]
      simp [max_eq_left (le_trans he1 hone), max_eq_left hone]
    | some w =>
      simp only [effWeights, totalWeight, truncW, if_true, ite_mul, one_mul, zero_mul]
      rw [sum_mask h w]
  have hcell : ∀ (P Q : Matrix (Fin n) (Fin (k + 1)) ℝ) (a c : Fin (k + 1)) (μ ν : Fin (k + 1) → ℝ),
      ∑ i, centred P μ (effWeights true m w) i a * centred Q ν (effWeights true m w) i c
        = ∑ i, centred (trunc h P) μ (truncW h w) i a * centred (trunc h Q) ν (truncW h w) i c := by
    intro P Q a c μ ν
    have e : ∀ i : Fin m, weightOf (truncW h w) i = weightOf w (Fin.castLE h i) := by intro i; cases w <;> rfl
    simp only [centred_eq, e, trunc, Matrix.of_apply]
    rw [← sum_mask h (fun i => (P i a - μ a) * weightOf w i * ((Q i c - ν c) * weightOf w i))]
    refine Finset.sum_congr rfl fun i _ => ?_
    rw [effWeights_weightOf]
    split <;> simp
  rw [align_assemble, align_assemble, htot, hmean, hmean]
  have hcov : ∀ μ ν, (centred X μ (effWeights true m w))ᵀ * centred Y ν (effWeights true m w)
      = (centred (trunc h X) μ (truncW h w))ᵀ * centred (trunc h Y) ν (truncW h w) := by
    intro μ ν
    ext a c
    simp only [Matrix.mul_apply, Matrix.transpose_apply]
    exact hcell X Y a c _ _
  have hsq : ∀ μ, sq (centred X μ (effWeights true m w)) = sq (centred (trunc h X) μ (truncW h w)) := by
    intro μ
    unfold sq
    rw [Finset.sum_comm, Finset.sum_comm (s := (Finset.univ : Finset (Fin m)))]
    exact Finset.sum_congr rfl fun a _ => hcell X X a a _ _
  rw [hcov, hsq]

/-- The alignment of one cloud of a batch is that of its own points alone: neither the padding nor the other clouds matter. -/
theorem alignBatch_padding {b : Nat} {eps : ℝ} (he1 : eps ≤ 1) (es ar : Bool) (X Y : Fin b → Matrix (Fin n) (Fin (k + 1)) ℝ)
    (np : Fin b → Nat) (w : Option (Fin b → Fin n → ℝ)) (e : Fin b) (h : np e ≤ n) (hm : 0 < np e) :
    alignBatch svd es ar eps X Y np w e
      = align svd es ar eps (trunc h (X e)) (trunc h (Y e)) (np e) (truncW h (match w with | none => none | some w => some (w e))) := by
  unfold alignBatch
  by_cases hp : ∃ e, np e < n
  · rw [decide_eq_true hp]
    exact align_padding he1 es ar (X e) (Y e) h hm _
  · have hn : np e = n := by
      push Not at hp
      exact le_antisymm h (hp e)
    rw [decide_eq_false hp]
    revert h hm
    generalize np e = m at hn
    subst hn
    intro h _
    cases w <;> rfl

/-! ### Weights -/

/-- In dimension one without reflections the rotation is the identity. -/
theorem dim_one {t : Matrix (Fin (0 + 1)) (Fin (0 + 1)) ℝ} (h : Valid false t) : t 0 0 = 1 := by
  have := h.2 rfl
  rwa [Matrix.det_fin_one] at this

theorem sum_one' (f : Fin (0 + 1) → ℝ) : ∑ i, f i = f 0 := Fin.sum_univ_one f

/-- The weighted sum of squared distances is not minimized in general: the weights enter squared in rotation and scale.  Three points on a
line with weights 1, 1, 2; whatever decomposition `torch.svd` returns, the estimated scale is 1/2, while 1/3 has a smaller error. -/
theorem align_weights_witness {svd : Matrix (Fin (0 + 1)) (Fin (0 + 1)) ℝ →
      Matrix (Fin (0 + 1)) (Fin (0 + 1)) ℝ × (Fin (0 + 1) → ℝ) × Matrix (Fin (0 + 1)) (Fin (0 + 1)) ℝ} (hs : SvdOk svd) :
    let X : Matrix (Fin 3) (Fin (0 + 1)) ℝ := !![-2; 0; 1]
    let Y : Matrix (Fin 3) (Fin (0 + 1)) ℝ := !![0; -2; 1]
    let w : Fin 3 → ℝ := ![1, 1, 2]
    ∃ t : Sim 0, Admissible true false t ∧
      cost X Y w t < cost X Y w (align svd true false (1 / 1000000000) X Y 3 (some w)) := by
  intro X Y w
  have he : (0 : ℝ) < 1 / 1000000000 := by norm_num
  have hadm := align_admissible hs true false he X Y 3 (some w)
  have hw : MeanOk (1 / 1000000000) (some w) := by
    show (1 / 1000000000 : ℝ) ≤ ∑ i, w i
    simp [w, Fin.sum_univ_three]; norm_num
  have hmx : ∀ j, wmean (1 / 1000000000) X (some w) j = 0 := by
    intro j; rw [show j = 0 from Fin.fin_one_eq_zero j]
    simp [wmean, X, w, Fin.sum_univ_three]
  have hmy : ∀ j, wmean (1 / 1000000000) Y (some w) j = 0 := by
    intro j; rw [show j = 0 from Fin.fin_one_eq_zero j]
    simp [wmean, Y, w, Fin.sum_univ_three]
  have hvar : variance (1 / 1000000000) X 3 (some w) = 2 := by
    simp only [variance, hmx]
    simp [weightOf, totalWeight, X, w, Fin.sum_univ_three]; norm_num
  have hT := align_T svd true false (1 / 1000000000) X Y 3 (some w) 0
  -- optimality determines the scale
  have hone : Valid false (1 : Matrix (Fin (0 + 1)) (Fin (0 + 1)) ℝ) := ⟨by simp, fun _ => by simp⟩
  have hmin := align_centred_min hs true false he X Y 3 (some w) (fun _ => by rw [hvar]; norm_num) ⟨1, fun _ => 0, 1 / 2⟩
    ⟨hone, Or.inr ⟨rfl, rfl⟩, by simp⟩
  have hR := dim_one hadm.1
  set t := align svd true false (1 / 1000000000) X Y 3 (some w) with ht
  refine ⟨⟨1, fun _ => 0, 1 / 3⟩, ⟨hone, Or.inr ⟨rfl, rfl⟩, by simp⟩, ?_⟩
  simp only [centredCost, hmx, hmy, weightOf, Fin.sum_univ_three, sum_one', hR, Matrix.one_apply_eq] at hmin
  simp only [hmx, hmy, sum_one', hR] at hT
  simp only [cost, Fin.sum_univ_three, sum_one', hR, Matrix.one_apply_eq, hT]
  simp [X, Y, w] at hmin ⊢
  nlinarith [sq_nonneg (t.s - 1 / 2)]

end Align

end

end P3D.Align
