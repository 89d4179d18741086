import Mathlib.Analysis.Matrix.Spectrum
import Mathlib.Analysis.InnerProductSpace.PiL2
import Verif.Align

set_option linter.unusedSectionVars false

namespace P3D.Align

open Matrix

noncomputable section

variable {k : Nat}

/-- Orthonormal families as functions. -/
theorem basis_dot (B : OrthonormalBasis (Fin (k + 1)) ℝ (EuclideanSpace ℝ (Fin (k + 1)))) (i j : Fin (k + 1)) :
    ∑ l, B i l * B j l = if i = j then 1 else 0 := by
  have h := orthonormal_iff_ite.mp B.orthonormal i j
  rw [EuclideanSpace.inner_eq_star_dotProduct] at h
  rw [← h]
  simp [dotProduct, mul_comm]

/-- Every real square matrix has a singular value decomposition. -/
theorem svd_exists (A : Matrix (Fin (k + 1)) (Fin (k + 1)) ℝ) :
    ∃ U S V, IsSVD A U S V := by
  have hH : (Aᵀ * A).IsHermitian := by
    rw [Matrix.IsHermitian, Matrix.conjTranspose_eq_transpose_of_trivial, Matrix.transpose_mul, Matrix.transpose_transpose]
  -- the last eigenvalue the smallest
  obtain ⟨i0, -, hi0⟩ := Finset.exists_min_image Finset.univ hH.eigenvalues ⟨0, Finset.mem_univ _⟩
  set σ := Equiv.swap i0 (Fin.last k)
  set B := hH.eigenvectorBasis.reindex σ with hB
  set lam : Fin (k + 1) → ℝ := fun i => hH.eigenvalues (σ i) with hlam
  have hBi : ∀ i, B i = hH.eigenvectorBasis (σ i) := by
    intro i
    rw [hB, OrthonormalBasis.reindex_apply]
    congr 1
  have heig : ∀ i, (Aᵀ * A) *ᵥ (B i : Fin (k + 1) → ℝ) = lam i • (B i : Fin (k + 1) → ℝ) := by
    intro i
    rw [hBi]
    exact hH.mulVec_eigenvectorBasis (σ i)
  have hdot : ∀ i j, (A *ᵥ (B i : Fin (k + 1) → ℝ)) ⬝ᵥ (A *ᵥ (B j : Fin (k + 1) → ℝ)) = if i = j then lam i else 0 := by
    intro i j
    rw [Matrix.dotProduct_mulVec, ← Matrix.mulVec_transpose, Matrix.mulVec_mulVec, heig, smul_dotProduct]
    have := basis_dot B i j
    rw [dotProduct, this]
    split <;> simp
  have hnn : ∀ i, 0 ≤ lam i := by
    intro i
    have := hdot i i
    rw [if_pos rfl] at this
    rw [← this]
    exact Finset.sum_nonneg fun _ _ => mul_self_nonneg _
  let u : Fin (k + 1) → EuclideanSpace ℝ (Fin (k + 1)) := fun i => WithLp.toLp 2 ((√ (lam i))⁻¹ • (A *ᵥ (B i : Fin (k + 1) → ℝ)))
  have hu : Orthonormal ℝ ({i | lam i ≠ 0}.domRestrict u) := by
    rw [orthonormal_iff_ite]
    rintro ⟨i, hi⟩ ⟨j, hj⟩
    have hi : lam i ≠ 0 := hi
    have hpos : 0 < lam i := lt_of_le_of_ne (hnn i) (Ne.symm hi)
    change inner ℝ (u i) (u j) = _
    simp only [EuclideanSpace.inner_eq_star_dotProduct, u, Subtype.mk.injEq]
    rw [star_trivial, dotProduct_smul, smul_dotProduct, hdot, smul_eq_mul, smul_eq_mul]
    by_cases hij : i = j
    · subst hij
      rw [if_pos rfl, if_pos rfl, ← mul_assoc, ← mul_inv, Real.mul_self_sqrt hpos.le, inv_mul_cancel₀ hi]
    · rw [if_neg (fun h => hij h.symm), if_neg hij]; simp
  obtain ⟨C, hC⟩ := hu.exists_orthonormalBasis_extension_of_card_eq (by simp)
  have hAv : ∀ i, A *ᵥ (B i : Fin (k + 1) → ℝ) = √ (lam i) • (C i : Fin (k + 1) → ℝ) := by
    intro i
    by_cases hi : lam i = 0
    · rw [hi, Real.sqrt_zero, zero_smul]
      have := hdot i i
      rw [if_pos rfl, hi] at this
      exact dotProduct_self_eq_zero.mp this
    · rw [hC i hi]
      have : √ (lam i) ≠ 0 := (Real.sqrt_pos.mpr (lt_of_le_of_ne (hnn i) (Ne.symm hi))).ne'
      simp only [u]
      rw [smul_smul, mul_inv_cancel₀ this, one_smul]
  let U : Matrix (Fin (k + 1)) (Fin (k + 1)) ℝ := Matrix.of fun l i => C i l
  let V : Matrix (Fin (k + 1)) (Fin (k + 1)) ℝ := Matrix.of fun l i => B i l
  have horth : ∀ (D : OrthonormalBasis (Fin (k + 1)) ℝ (EuclideanSpace ℝ (Fin (k + 1)))),
      (Matrix.of fun l i => D i l)ᵀ * (Matrix.of fun l i => D i l) = (1 : Matrix (Fin (k + 1)) (Fin (k + 1)) ℝ) := by
    intro D
    ext i j
    rw [Matrix.mul_apply, Matrix.one_apply, ← basis_dot D i j]
    rfl
  refine ⟨U, fun i => √ (lam i), V, horth C, horth B, fun i => Real.sqrt_nonneg _, ?_, ?_⟩
  · intro i
    apply Real.sqrt_le_sqrt
    have : lam (Fin.last k) = hH.eigenvalues i0 := by simp [hlam, σ]
    rw [this]
    exact hi0 _ (Finset.mem_univ _)
  · have hAV : A * V = U * diagonal fun i => √ (lam i) := by
      ext l i
      rw [Matrix.mul_diagonal]
      have := congrFun (hAv i) l
      simp only [Pi.smul_apply, smul_eq_mul] at this
      rw [mul_comm]
      exact this
    rw [← hAV, Matrix.mul_assoc, mul_eq_one_comm.mp (horth B), Matrix.mul_one]

/-- There is a function that decomposes every matrix. -/
theorem svdOk_exists : ∃ svd : Matrix (Fin (k + 1)) (Fin (k + 1)) ℝ →
      Matrix (Fin (k + 1)) (Fin (k + 1)) ℝ × (Fin (k + 1) → ℝ) × Matrix (Fin (k + 1)) (Fin (k + 1)) ℝ, SvdOk svd := by
  choose U S V h using svd_exists (k := k)
  exact ⟨fun A => (U A, S A, V A), fun A => h A⟩

end

end P3D.Align
