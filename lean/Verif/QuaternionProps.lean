/-
C19, C20: quaternions and rotation matrices.
-/
import Verif.Rotations
import Mathlib.Tactic.Linarith
import Mathlib.Tactic.FieldSimp
import Mathlib.Tactic.FinCases
import Mathlib.Tactic.Positivity

set_option linter.unusedSectionVars false

namespace P3D.Rot
open M3

section Algebra
variable {R : Type*} [Field R]

@[simp] theorem neg_r (q : Q R) : (-q).r = -q.r := rfl
@[simp] theorem neg_i (q : Q R) : (-q).i = -q.i := rfl
@[simp] theorem neg_j (q : Q R) : (-q).j = -q.j := rfl
@[simp] theorem neg_k (q : Q R) : (-q).k = -q.k := rfl
@[simp] theorem qsmul_r (c : R) (q : Q R) : (c • q).r = c * q.r := rfl
@[simp] theorem qsmul_i (c : R) (q : Q R) : (c • q).i = c * q.i := rfl
@[simp] theorem qsmul_j (c : R) (q : Q R) : (c • q).j = c * q.j := rfl
@[simp] theorem qsmul_k (c : R) (q : Q R) : (c • q).k = c * q.k := rfl

/-- **C19.** The matrix of a quaternion of non-zero norm is a rotation matrix. -/
theorem quatToMat_rot {q : Q R} (h : q.normSq ≠ 0) : IsRot (quatToMat q) := by
  have key : q.normSq⁻¹ * (q.r * q.r + q.i * q.i + q.j * q.j + q.k * q.k) = 1 := inv_mul_cancel₀ h
  constructor
  · simp only [quatToMat, mul_def, transpose, one_def, M3.mk.injEq, div_eq_mul_inv]
    generalize q.normSq⁻¹ = s at key
    refine ⟨?_, ?_, ?_, ?_, ?_, ?_, ?_, ?_, ?_⟩ <;> grind
  · simp only [quatToMat, M3.det, div_eq_mul_inv]
    generalize q.normSq⁻¹ = s at key
    grind

/-- **C19.** Products of quaternions are mapped to products of matrices. -/
theorem quatToMat_mul {a b : Q R} (ha : a.normSq ≠ 0) (hb : b.normSq ≠ 0) :
    quatToMat (rawMul a b) = quatToMat a * quatToMat b := by
  have hn : (rawMul a b).normSq = a.normSq * b.normSq := by
    simp only [Q.normSq, rawMul]; ring
  have ka : a.normSq⁻¹ * (a.r * a.r + a.i * a.i + a.j * a.j + a.k * a.k) = 1 := inv_mul_cancel₀ ha
  have kb : b.normSq⁻¹ * (b.r * b.r + b.i * b.i + b.j * b.j + b.k * b.k) = 1 := inv_mul_cancel₀ hb
  simp only [quatToMat, mul_def, M3.mk.injEq, div_eq_mul_inv, hn, mul_inv]
  generalize a.normSq⁻¹ = s at ka
  generalize b.normSq⁻¹ = t at kb
  simp only [rawMul]
  refine ⟨?_, ?_, ?_, ?_, ?_, ?_, ?_, ?_, ?_⟩ <;> grind

/-- **C19.** The matrix does not depend on the length or sign of the quaternion. -/
theorem quatToMat_smul {c : R} (hc : c ≠ 0) (q : Q R) : quatToMat (c • q) = quatToMat q := by
  have hn : (c • q).normSq = c * c * q.normSq := by simp only [Q.normSq, qsmul_r, qsmul_i, qsmul_j, qsmul_k]; ring
  have hcc : c⁻¹ * c = 1 := inv_mul_cancel₀ hc
  simp only [quatToMat, hn, div_eq_mul_inv, mul_inv, M3.mk.injEq, qsmul_r, qsmul_i, qsmul_j, qsmul_k]
  generalize c⁻¹ = d at hcc
  refine ⟨?_, ?_, ?_, ?_, ?_, ?_, ?_, ?_, ?_⟩ <;> grind

theorem neg_eq_smul (q : Q R) : -q = (-1 : R) • q := by ext <;> simp

theorem quatToMat_neg (q : Q R) : quatToMat (-q) = quatToMat q := by
  rw [neg_eq_smul, quatToMat_smul (by simp)]

/-! ### C20: algebra -/

theorem rawMul_assoc (a b c : Q R) : rawMul (rawMul a b) c = rawMul a (rawMul b c) := by
  simp only [rawMul, Q.mk.injEq]
  refine ⟨?_, ?_, ?_, ?_⟩ <;> ring

theorem rawMul_one (a : Q R) : rawMul a ⟨1, 0, 0, 0⟩ = a ∧ rawMul ⟨1, 0, 0, 0⟩ a = a := by
  constructor <;> ext <;> simp [rawMul]

theorem normSq_rawMul (a b : Q R) : (rawMul a b).normSq = a.normSq * b.normSq := by
  simp only [Q.normSq, rawMul]; ring

theorem normSq_invert (a : Q R) : (invert a).normSq = a.normSq := by
  simp only [Q.normSq, invert]; ring

/-- `quaternion_invert` is the two-sided inverse for unit quaternions (the conjugate in general). -/
theorem rawMul_invert (q : Q R) :
    rawMul q (invert q) = ⟨q.normSq, 0, 0, 0⟩ ∧ rawMul (invert q) q = ⟨q.normSq, 0, 0, 0⟩ := by
  simp only [rawMul, invert, Q.normSq, Q.mk.injEq]
  refine ⟨⟨?_, ?_, ?_, ?_⟩, ⟨?_, ?_, ?_, ?_⟩⟩ <;> ring

/-- **C20.** The inverse quaternion gives the transposed (inverse) matrix. -/
theorem quatToMat_invert (q : Q R) : quatToMat (invert q) = (quatToMat q).transpose := by
  simp only [quatToMat, normSq_invert, transpose, M3.mk.injEq]
  simp only [invert]
  refine ⟨?_, ?_, ?_, ?_, ?_, ?_, ?_, ?_, ?_⟩ <;> ring

/-- **C20.** `quaternion_apply` is the matrix times the squared norm: equal to the rotation for unit
quaternions. -/
theorem apply_eq {q : Q R} (h : q.normSq ≠ 0) (p : V3 R) :
    apply q p = q.normSq • (quatToMat q).mulVec p := by
  have key : q.normSq⁻¹ * (q.r * q.r + q.i * q.i + q.j * q.j + q.k * q.k) = 1 := inv_mul_cancel₀ h
  have hn : q.normSq = q.r * q.r + q.i * q.i + q.j * q.j + q.k * q.k := rfl
  ext <;>
    simp only [apply, quatToMat, mulVec, rawMul, invert, Q.im, V3.smul_x, V3.smul_y, V3.smul_z,
      div_eq_mul_inv] <;>
    generalize q.normSq⁻¹ = s at key <;> rw [hn] <;> grind

theorem apply_unit {q : Q R} (h : q.normSq = 1) (p : V3 R) : apply q p = (quatToMat q).mulVec p := by
  rw [apply_eq (by rw [h]; exact one_ne_zero), h, one_smul]

/-- **C20.** Applying a product is applying the factors one after the other. -/
theorem apply_rawMul (a b : Q R) (p : V3 R) : apply (rawMul a b) p = apply a (apply b p) := by
  simp only [apply, rawMul, invert, Q.im, V3.mk.injEq]
  refine ⟨?_, ?_, ?_⟩ <;> ring

theorem apply_invert {q : Q R} (h : q.normSq = 1) (p : V3 R) : apply (invert q) (apply q p) = p := by
  rw [← apply_rawMul, (rawMul_invert q).2, h]
  ext <;> simp [apply, rawMul, invert, Q.im]

section Order
variable [LinearOrder R] [IsStrictOrderedRing R]

theorem normSq_nonneg (q : Q R) : 0 ≤ q.normSq := by
  unfold Q.normSq
  nlinarith [mul_self_nonneg q.r, mul_self_nonneg q.i, mul_self_nonneg q.j, mul_self_nonneg q.k]

theorem normSq_eq_zero {q : Q R} : q.normSq = 0 ↔ q = ⟨0, 0, 0, 0⟩ := by
  constructor
  · intro h
    unfold Q.normSq at h
    have h1 := mul_self_nonneg q.r
    have h2 := mul_self_nonneg q.i
    have h3 := mul_self_nonneg q.j
    have h4 := mul_self_nonneg q.k
    ext <;> apply mul_self_eq_zero.mp <;> linarith
  · rintro rfl; simp [Q.normSq]

theorem standardize_eq (q : Q R) : standardize q = q ∨ standardize q = -q := by
  unfold standardize; split <;> simp

/-- **C20.** `standardize_quaternion` keeps the rotation, gives a non-negative real part, and is
idempotent. -/
theorem standardize_spec (q : Q R) :
    quatToMat (standardize q) = quatToMat q ∧ 0 ≤ (standardize q).r
      ∧ standardize (standardize q) = standardize q ∧ (standardize q).normSq = q.normSq := by
  unfold standardize
  by_cases h : q.r < 0
  · rw [if_pos h]
    refine ⟨quatToMat_neg q, by simpa using h.le, ?_, by simp [Q.normSq]⟩
    rw [if_neg]
    simpa using h.le
  · rw [if_neg h]
    refine ⟨rfl, not_lt.mp h, ?_, rfl⟩
    rw [if_neg h]

/-- Two quaternions that differ only in sign have the same standard form unless the real part is 0. -/
theorem standardize_neg {q : Q R} (h : q.r ≠ 0) : standardize (-q) = standardize q := by
  unfold standardize
  rcases lt_or_gt_of_ne h with h | h
  · rw [if_pos h, if_neg]
    simpa using h.le
  · rw [if_neg (not_lt.mpr h.le), if_pos (by simpa using h)]
    ext <;> simp

/-- **C20.** `quaternion_multiply` composes rotations. -/
theorem multiply_spec {a b : Q R} (ha : a.normSq = 1) (hb : b.normSq = 1) :
    quatToMat (multiply a b) = quatToMat a * quatToMat b ∧ 0 ≤ (multiply a b).r
      ∧ (multiply a b).normSq = 1 := by
  unfold multiply
  obtain ⟨h1, h2, _, h4⟩ := standardize_spec (rawMul a b)
  refine ⟨?_, h2, ?_⟩
  · rw [h1, quatToMat_mul (by rw [ha]; exact one_ne_zero) (by rw [hb]; exact one_ne_zero)]
  · rw [h4, normSq_rawMul, ha, hb, one_mul]

theorem copysign_spec {a b : R} (ha : 0 ≤ a) :
    copysign a b = if b < 0 then -a else a := by
  unfold copysign
  have : ¬ a < 0 := not_lt.mpr ha
  by_cases hb : b < 0 <;> simp [this, hb]

/-- The matrix determines the quaternion up to a factor. -/
theorem quat_unique {p q : Q R} (hp : p.normSq = 1) (hq : q.normSq = 1)
    (h : quatToMat p = quatToMat q) : p = q ∨ p = -q := by
  simp only [quatToMat, hp, hq, M3.mk.injEq] at h
  obtain ⟨h1, h2, h3, h4, h5, h6, h7, h8, h9⟩ := h
  unfold Q.normSq at hp hq
  -- all products p_a p_b = q_a q_b
  have rr : p.r * p.r = q.r * q.r := by linarith
  have ii : p.i * p.i = q.i * q.i := by linarith
  have jj : p.j * p.j = q.j * q.j := by linarith
  have kk : p.k * p.k = q.k * q.k := by linarith
  have ri : p.r * p.i = q.r * q.i := by linarith
  have rj : p.r * p.j = q.r * q.j := by linarith
  have rk : p.r * p.k = q.r * q.k := by linarith
  have ij : p.i * p.j = q.i * q.j := by linarith
  have ik : p.i * p.k = q.i * q.k := by linarith
  have jk : p.j * p.k = q.j * q.k := by linarith
  -- (p·q)² = 1
  have hd : (p.r * q.r + p.i * q.i + p.j * q.j + p.k * q.k) ^ 2 = 1 := by grind
  have sq : ∀ s : R, s * s = 1 → (p.r * q.r + p.i * q.i + p.j * q.j + p.k * q.k) = s →
      (p.r - s * q.r) ^ 2 + (p.i - s * q.i) ^ 2 + (p.j - s * q.j) ^ 2 + (p.k - s * q.k) ^ 2 = 0 := by
    intro s hs he
    grind
  have fin : ∀ s : R, (p.r - s * q.r) ^ 2 + (p.i - s * q.i) ^ 2 + (p.j - s * q.j) ^ 2
      + (p.k - s * q.k) ^ 2 = 0 → p = s • q := by
    intro s hs
    have e1 := sq_nonneg (p.r - s * q.r)
    have e2 := sq_nonneg (p.i - s * q.i)
    have e3 := sq_nonneg (p.j - s * q.j)
    have e4 := sq_nonneg (p.k - s * q.k)
    ext <;> simp only [qsmul_r, qsmul_i, qsmul_j, qsmul_k] <;> apply sub_eq_zero.mp <;>
      apply pow_eq_zero_iff (two_ne_zero) |>.mp <;> linarith
  rw [pow_two] at hd
  rcases mul_self_eq_one_iff.mp hd with h | h
  · left
    rw [fin 1 (sq 1 (by ring) h)]
    ext <;> simp
  · right
    rw [fin (-1) (sq (-1) (by ring) h)]
    ext <;> simp

end Order

end Algebra

/-! ### From matrices to quaternions -/

noncomputable section

/-- The matrix `4 q qᵀ` of products, in terms of the rotation matrix. -/
def prods (m : M3 ℝ) : Fin 4 → Fin 4 → ℝ
  | 0, 0 => qArgs m 0
  | 1, 1 => qArgs m 1
  | 2, 2 => qArgs m 2
  | 3, 3 => qArgs m 3
  | 0, 1 | 1, 0 => m.m21 - m.m12
  | 0, 2 | 2, 0 => m.m02 - m.m20
  | 0, 3 | 3, 0 => m.m10 - m.m01
  | 1, 2 | 2, 1 => m.m10 + m.m01
  | 1, 3 | 3, 1 => m.m02 + m.m20
  | 2, 3 | 3, 2 => m.m12 + m.m21

theorem prods_rank {m : M3 ℝ} (h : IsRot m) (n a b : Fin 4) :
    prods m n a * prods m n b = prods m n n * prods m a b := by
  obtain ⟨r00, r11, r22, r01, r02, r12, c00, c11, c22, c01, c02, c12, a00, a01, a02, a10, a11, a12,
    a20, a21, a22⟩ := h.eqs
  fin_cases n <;> fin_cases a <;> fin_cases b <;> simp only [prods, qArgs] <;> grind

theorem qAbs_ge {m : M3 ℝ} {n : Fin 4} (hn : IsArgmax (qAbs m) n) : 1 ≤ qAbs m n := by
  have hs : qArgs m 0 + qArgs m 1 + qArgs m 2 + qArgs m 3 = 4 := by simp only [qArgs]; ring
  have : ∃ k, 1 ≤ qArgs m k := by
    by_contra hc
    push Not at hc
    have := hc 0; have := hc 1; have := hc 2; have := hc 3
    linarith
  obtain ⟨k, hk⟩ := this
  refine le_trans ?_ (hn k)
  unfold qAbs sqrtPos
  rw [if_pos (by linarith)]
  exact Real.one_le_sqrt.mpr hk

theorem qAbs_sq {m : M3 ℝ} {n : Fin 4} (h : 1 ≤ qAbs m n) : qAbs m n ^ 2 = qArgs m n := by
  unfold qAbs sqrtPos at *
  split at h
  · rename_i hp
    rw [if_pos hp, Real.sq_sqrt hp.le]
  · linarith

/-- Components of a quaternion by position. -/
def Q.get (q : Q ℝ) : Fin 4 → ℝ
  | 0 => q.r
  | 1 => q.i
  | 2 => q.j
  | 3 => q.k

theorem candidate_prods {m : M3 ℝ} (h : IsRot m) {n : Fin 4} (hn : IsArgmax (qAbs m) n) (a b : Fin 4) :
    (candidate m n).get a * (candidate m n).get b = prods m a b / 4 := by
  have h1 := qAbs_ge hn
  have h2 := qAbs_sq h1
  have hmax : max (qAbs m n) (1 / 10) = qAbs m n := max_eq_left (by linarith)
  have hget : ∀ a, (candidate m n).get a = (2 * qAbs m n)⁻¹ * prods m n a := by
    intro a
    unfold candidate
    rw [hmax]
    fin_cases n <;> fin_cases a <;> simp only [Q.get, qsmul_r, qsmul_i, qsmul_j, qsmul_k, quatBy, prods] <;>
      first | rfl | exact congrArg (_ * ·) h2 | ring
  have hd : prods m n n = qArgs m n := by fin_cases n <;> rfl
  rw [hget, hget]
  have := prods_rank h n a b
  rw [hd, ← h2] at this
  have h0 : qAbs m n ≠ 0 := by linarith
  field_simp
  linear_combination 4 * this

/-- **C19 (round trip from matrices).** Whatever index `argmax` returns among the maxima, the result is
a unit quaternion with non-negative real part whose matrix is the given rotation. -/
theorem matToQuatAt_spec {m : M3 ℝ} (h : IsRot m) {n : Fin 4} (hn : IsArgmax (qAbs m) n) :
    quatToMat (matToQuatAt m n) = m ∧ (matToQuatAt m n).normSq = 1 ∧ 0 ≤ (matToQuatAt m n).r := by
  have hp := candidate_prods h hn
  obtain ⟨s1, s2, _, s4⟩ := standardize_spec (candidate m n)
  have rr := hp 0 0
  have ii := hp 1 1
  have jj := hp 2 2
  have kk := hp 3 3
  have ri := hp 0 1
  have rj := hp 0 2
  have rk := hp 0 3
  have ij := hp 1 2
  have ik := hp 1 3
  have jk := hp 2 3
  simp only [Q.get, prods, qArgs] at rr ii jj kk ri rj rk ij ik jk
  have hnorm : (candidate m n).normSq = 1 := by
    unfold Q.normSq; linarith
  refine ⟨?_, ?_, s2⟩
  · rw [matToQuatAt, s1]
    ext <;> simp only [quatToMat, hnorm] <;> linarith
  · rw [matToQuatAt, s4, hnorm]

theorem argmax4_spec (f : Fin 4 → ℝ) : IsArgmax f (argmax4 f) := by
  unfold argmax4
  split
  · rename_i h
    intro k; fin_cases k
    · exact le_refl _
    · exact h.1
    · exact h.2.1
    · exact h.2.2
  · rename_i h0
    split
    · rename_i h
      intro k; fin_cases k
      · show f 0 ≤ f 1
        by_contra hc
        push Not at hc
        exact h0 ⟨hc.le, h.1.trans hc.le, h.2.trans hc.le⟩
      · exact le_refl _
      · exact h.1
      · exact h.2
    · rename_i h1
      have key : ∀ a b : Fin 4, ((a = 2 ∧ b = 3) ∨ (a = 3 ∧ b = 2)) → f b ≤ f a → IsArgmax f a := by
        intro a b hab hba
        have e1 : f 1 ≤ f a := by
          by_contra hc
          push Not at hc
          apply h1
          rcases hab with ⟨rfl, rfl⟩ | ⟨rfl, rfl⟩
          · exact ⟨hc.le, hba.trans hc.le⟩
          · exact ⟨hba.trans hc.le, hc.le⟩
        have e0 : f 0 ≤ f a := by
          by_contra hc
          push Not at hc
          apply h0
          rcases hab with ⟨rfl, rfl⟩ | ⟨rfl, rfl⟩
          · exact ⟨e1.trans hc.le, hc.le, hba.trans hc.le⟩
          · exact ⟨e1.trans hc.le, hba.trans hc.le, hc.le⟩
        intro k
        rcases hab with ⟨rfl, rfl⟩ | ⟨rfl, rfl⟩ <;> fin_cases k <;>
          first | exact e0 | exact e1 | exact le_refl _ | exact hba
      split
      · rename_i h; exact key 2 3 (Or.inl ⟨rfl, rfl⟩) h
      · rename_i h; exact key 3 2 (Or.inr ⟨rfl, rfl⟩) (not_le.mp h).le

/-- **C19.** `quaternion_to_matrix(matrix_to_quaternion(R)) = R`. -/
theorem matToQuat_spec {m : M3 ℝ} (h : IsRot m) :
    quatToMat (matToQuat m) = m ∧ (matToQuat m).normSq = 1 ∧ 0 ≤ (matToQuat m).r :=
  matToQuatAt_spec h (argmax4_spec _)

/-- **C19 (round trip from quaternions).** `matrix_to_quaternion(quaternion_to_matrix(q))` is `q` or `-q`
for unit `q`, and exactly `standardize_quaternion(q)` if the real part is not zero. -/
theorem matToQuat_quatToMat {q : Q ℝ} (hq : q.normSq = 1) {n : Fin 4}
    (hn : IsArgmax (qAbs (quatToMat q)) n) :
    (matToQuatAt (quatToMat q) n = q ∨ matToQuatAt (quatToMat q) n = -q)
      ∧ (q.r ≠ 0 → matToQuatAt (quatToMat q) n = standardize q) := by
  have hr := quatToMat_rot (q := q) (by rw [hq]; exact one_ne_zero)
  obtain ⟨h1, h2, h3⟩ := matToQuatAt_spec hr hn
  have hu := quat_unique h2 hq h1
  refine ⟨hu, fun h0 => ?_⟩
  have hstd : standardize (matToQuatAt (quatToMat q) n) = matToQuatAt (quatToMat q) n := by
    unfold standardize; rw [if_neg (not_lt.mpr h3)]
  rw [← hstd]
  rcases hu with hu | hu
  · rw [hu]
  · rw [hu, standardize_neg h0]

/-- For any non-zero quaternion: the normalised quaternion up to sign. -/
theorem matToQuat_quatToMat' {q : Q ℝ} (hq : q.normSq ≠ 0) {n : Fin 4}
    (hn : IsArgmax (qAbs (quatToMat q)) n) :
    matToQuatAt (quatToMat q) n = (Real.sqrt q.normSq)⁻¹ • q
      ∨ matToQuatAt (quatToMat q) n = -((Real.sqrt q.normSq)⁻¹ • q) := by
  have hpos : 0 < q.normSq := lt_of_le_of_ne (normSq_nonneg q) (Ne.symm hq)
  have hs : Real.sqrt q.normSq ≠ 0 := (Real.sqrt_pos.mpr hpos).ne'
  have e := quatToMat_smul (inv_ne_zero hs) q
  have hu : ((Real.sqrt q.normSq)⁻¹ • q).normSq = 1 := by
    have : ((Real.sqrt q.normSq)⁻¹ • q).normSq = (Real.sqrt q.normSq)⁻¹ ^ 2 * q.normSq := by
      simp only [Q.normSq, qsmul_r, qsmul_i, qsmul_j, qsmul_k]; ring
    rw [this, inv_pow, Real.sq_sqrt hpos.le, inv_mul_cancel₀ hq]
  rw [← e] at hn ⊢
  exact (matToQuat_quatToMat hu hn).1

/-- **C19 (random rotations).** `random_quaternions` gives unit quaternions with non-negative real part
for every non-zero draw. -/
theorem randomQuat_spec {o : Q ℝ} (h : o.normSq ≠ 0) :
    (randomQuat o).normSq = 1 ∧ 0 ≤ (randomQuat o).r := by
  have hpos : 0 < o.normSq := lt_of_le_of_ne (normSq_nonneg o) (Ne.symm h)
  have hs : 0 < Real.sqrt o.normSq := Real.sqrt_pos.mpr hpos
  unfold randomQuat
  rw [copysign_spec hs.le]
  have gen : ∀ c : ℝ, c ^ 2 = o.normSq → (c⁻¹ • o).normSq = 1 := by
    intro c hc
    have : (c⁻¹ • o).normSq = c⁻¹ ^ 2 * o.normSq := by
      simp only [Q.normSq, qsmul_r, qsmul_i, qsmul_j, qsmul_k]; ring
    rw [this, inv_pow, hc, inv_mul_cancel₀ h]
  by_cases hr : o.r < 0
  · rw [if_pos hr]
    refine ⟨gen _ (by rw [neg_sq, Real.sq_sqrt hpos.le]), ?_⟩
    rw [qsmul_r, inv_neg]
    have := inv_pos.mpr hs
    nlinarith
  · rw [if_neg hr]
    refine ⟨gen _ (Real.sq_sqrt hpos.le), ?_⟩
    rw [qsmul_r]
    exact mul_nonneg (inv_pos.mpr hs).le (not_lt.mp hr)

end

/-! ### Examples -/

section Examples

/-- A quarter turn about the axis (2,2,1)/3 direction, unnormalised. -/
def exQ : Q ℚ := ⟨3, 2, 2, 1⟩
example : quatToMat exQ = ⟨4/9, 1/9, 8/9, 7/9, 4/9, -4/9, -4/9, 8/9, 1/9⟩ := by decide +kernel
example : IsRot (quatToMat exQ) := quatToMat_rot (by decide +kernel)
example : rawMul exQ (invert exQ) = ⟨18, 0, 0, 0⟩ := by decide +kernel
example : apply exQ ⟨1, 0, 0⟩ = ⟨8, 14, -8⟩ := by decide +kernel
example : multiply (⟨0, 1, 0, 0⟩ : Q ℚ) ⟨0, 1, 0, 0⟩ = ⟨1, 0, 0, 0⟩ := by decide +kernel
-- half turn about x: real part 0, any maximal candidate
example : quatToMat (matToQuat (⟨1, 0, 0, 0, -1, 0, 0, 0, -1⟩ : M3 ℝ)) = ⟨1, 0, 0, 0, -1, 0, 0, 0, -1⟩ :=
  (matToQuat_spec ⟨by simp [mul_def, transpose], by simp [M3.det]⟩).1

end Examples

end P3D.Rot
