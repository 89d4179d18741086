/-
C23: the exponential and logarithm of rotations and rigid motions.
-/
import Verif.So3
import Verif.AxisAngleProps
import Mathlib.Tactic.FinCases

set_option linter.unusedSectionVars false

namespace P3D.So3
open Rot M3

/-! ### hat -/

section
variable {R : Type*} [Field R] [LinearOrder R] [IsStrictOrderedRing R]

/-- **C23 (hat).** `hat(v)` is the matrix of the cross product with `v`. -/
theorem hat_mulVec (v w : V3 R) : (hat v).mulVec w = V3.cross v w := by
  ext <;> simp only [hat, mulVec, V3.cross] <;> ring

/-- **C23 (hat).** `hat_inv(hat(v)) = v` for every non-empty batch. -/
theorem hatInv_hat (vs : List (V3 R)) (h : vs ≠ []) : hatInv (vs.map hat) = .ok vs := by
  have h0 : (1 : R) / 10 ^ 5 > 0 := by positivity
  unfold hatInv
  rw [if_neg (by simpa using h), if_neg]
  · simp [hat, Function.comp_def]
  · simp only [List.any_eq_true, List.mem_map, decide_eq_true_eq, not_exists, not_and]
    rintro _ ⟨v, -, rfl⟩ e he
    have : e = 0 := by
      simp only [symEntries, hat, List.mem_cons, List.not_mem_nil, or_false, add_zero,
        add_neg_cancel, neg_add_cancel, or_self] at he
      exact he
    rw [this, abs_zero]
    exact not_lt.mpr h0.le

/-- Accepted matrices are skew-symmetric up to the tolerance, so the result determines them up to
that tolerance; exactly skew-symmetric ones are recovered. -/
theorem hat_hatInv {hs : List (M3 R)} {vs : List (V3 R)} (h : hatInv hs = .ok vs)
    (hskew : ∀ m ∈ hs, m + m.transpose = 0) : vs.map hat = hs := by
  unfold hatInv at h
  split_ifs at h
  obtain rfl := Except.ok.inj h
  rw [List.map_map]
  conv_rhs => rw [← List.map_id hs]
  apply List.map_congr_left
  intro m hm
  have hk := hskew m hm
  simp only [add_def, transpose, zero_def, M3.mk.injEq] at hk
  obtain ⟨a, b, c, d, e, f, g, i, j⟩ := hk
  ext <;> simp only [Function.comp_apply, hat, id_eq] <;> linarith

theorem hatInv_error {hs : List (M3 R)} {m : M3 R} (hm : m ∈ hs) {e : R} (he : e ∈ symEntries m)
    (hb : |e| > 1 / 10 ^ 5) : hatInv hs = .error .value := by
  unfold hatInv
  split_ifs with h1 h2
  · rfl
  · rfl
  · exact absurd (List.any_eq_true.mpr ⟨m, hm, List.any_eq_true.mpr ⟨e, he, decide_eq_true hb⟩⟩) h2

end

/-! ### so3 exponential and logarithm -/

/-- **C23.** The exponential is a rotation. -/
theorem exp_rot (v : V3 ℝ) : IsRot (exp v) := axisAngleToMat_rot v

/-- **C23.** `so3_log_map` inverts `so3_exp_map` below angle π … -/
theorem log_exp {v : V3 ℝ} (h : norm v < Real.pi) : log (exp v) = v := matToAxisAngle_axisAngleToMat h

/-- … and `so3_exp_map(so3_log_map(R)) = R` for every rotation. -/
theorem exp_log {m : M3 ℝ} (h : IsRot m) : exp (log m) = m ∧ norm (log m) ≤ Real.pi :=
  axisAngleToMat_matToAxisAngle h

/-- Rodrigues' formula for a unit axis. -/
theorem exp_axis (u : V3 ℝ) (hu : V3.normSq u = 1) (a : ℝ) :
    exp (a • u) = 1 + Real.sin a • hat u + (1 - Real.cos a) • (hat u * hat u) := by
  unfold exp
  rw [← axisAngleToMatFast_eq]
  have hn : norm (a • u) = |a| := by
    rw [norm_smul', Rot.norm, hu, Real.sqrt_one, mul_one]
  have h1 : |a| * sinc |a| = Real.sin |a| := mul_sinc _
  have h2 : a * sinc |a| = Real.sin a := by
    rcases abs_cases a with ⟨h, -⟩ | ⟨h, -⟩ <;> rw [h] at h1 ⊢
    · exact h1
    · rw [Real.sin_neg] at h1; linarith
  unfold axisAngleToMatFast
  simp only
  rw [hn, Real.cos_abs]
  by_cases h0 : a = 0
  · subst h0
    simp [add_def, smul_def, mul_def, skew, hat]
  · have h00 : ¬ |a| * |a| = 0 := by simpa using h0
    rw [if_neg h00, abs_mul_abs_self]
    have h3 : (1 - Real.cos a) / (a * a) * (a * a) = 1 - Real.cos a := by field_simp
    generalize (1 - Real.cos a) / (a * a) = t at h3
    rw [← h3, ← h2]
    simp only [add_def, smul_def, mul_def, skew, hat, one_def, V3.smul_x, V3.smul_y, V3.smul_z, M3.mk.injEq]
    refine ⟨?_, ?_, ?_, ?_, ?_, ?_, ?_, ?_, ?_⟩ <;> ring

/-- **C23.** Rotations about one axis compose by adding the angles. -/
theorem exp_add (u : V3 ℝ) (hu : V3.normSq u = 1) (a b : ℝ) :
    exp ((a + b) • u) = exp (a • u) * exp (b • u) := by
  rw [exp_axis u hu, exp_axis u hu, exp_axis u hu, Real.sin_add, Real.cos_add]
  simp only [V3.normSq, V3.dot] at hu
  generalize Real.sin a = sa
  generalize Real.sin b = sb
  generalize Real.cos a = ca
  generalize Real.cos b = cb
  simp only [add_def, smul_def, mul_def, hat, one_def, M3.mk.injEq]
  refine ⟨?_, ?_, ?_, ?_, ?_, ?_, ?_, ?_, ?_⟩ <;> grind

/-- **C23.** `so3_exp_map(-v)` is the inverse rotation. -/
theorem exp_neg (v : V3 ℝ) : exp (-v) = (exp v).transpose := by
  unfold exp
  rw [← axisAngleToMatFast_eq, ← axisAngleToMatFast_eq]
  have hn : norm (-v) = norm v := by simp [Rot.norm, V3.normSq, V3.dot]
  unfold axisAngleToMatFast
  simp only [hn]
  simp only [add_def, smul_def, mul_def, skew, one_def, transpose, V3.neg_x, V3.neg_y, V3.neg_z, M3.mk.injEq]
  refine ⟨?_, ?_, ?_, ?_, ?_, ?_, ?_, ?_, ?_⟩ <;> ring

/-! ### se3 -/

theorem det_vMat (v : V3 ℝ) (phi : ℝ) : (vMat v phi).det
    = (1 - (phi - Real.sin phi) / phi ^ 3 * V3.normSq v) ^ 2
      + ((1 - Real.cos phi) / phi ^ 2) ^ 2 * V3.normSq v := by
  unfold vMat
  generalize (phi - Real.sin phi) / phi ^ 3 = B
  generalize (1 - Real.cos phi) / phi ^ 2 = A
  simp only [add_def, smul_def, mul_def, hat, one_def, M3.det, V3.normSq, V3.dot]
  ring

theorem cos_lt_one {x : ℝ} (h0 : 0 < x) (h1 : x < 2 * Real.pi) : Real.cos x < 1 := by
  refine lt_of_le_of_ne (Real.cos_le_one x) ?_
  intro h
  have := (Real.cos_eq_one_iff_of_lt_of_lt (by linarith) h1).mp h
  linarith

/-- The translation part of the exponential is invertible for every angle below 2π. -/
theorem det_vMat_pos (v : V3 ℝ) {phi : ℝ} (h0 : 0 < phi) (h1 : phi < 2 * Real.pi) : 0 < (vMat v phi).det := by
  rw [det_vMat]
  have hc := cos_lt_one h0 h1
  have hA : 0 < (1 - Real.cos phi) / phi ^ 2 := div_pos (by linarith) (by positivity)
  rcases (normSq_nonneg' v).eq_or_lt with h | h
  · rw [← h]; simp
  · have := mul_pos (pow_pos hA 2) h
    have := sq_nonneg (1 - (phi - Real.sin phi) / phi ^ 3 * V3.normSq v)
    linarith

theorem solve_spec {V : M3 ℝ} (h : V.det ≠ 0) (T : V3 ℝ) :
    ∃ x, solve V T = .ok x ∧ V.mulVec x = T ∧ ∀ y, V.mulVec y = T → y = x := by
  refine ⟨_, if_neg h, ?_, ?_⟩
  · have := mul_adj V
    have h2 : V.mulVec (V.adj.mulVec T) = V.det • T := by
      rw [← mulVec_mul, this]
      ext <;> simp [smul_def, mulVec]
    have h3 : ∀ (c : ℝ) (w : V3 ℝ), V.mulVec (c • w) = c • V.mulVec w := by
      intro c w; ext <;> simp only [mulVec, V3.smul_x, V3.smul_y, V3.smul_z] <;> ring
    rw [h3, h2, smul_smul, inv_mul_cancel₀ h, one_smul]
  · rintro y rfl
    rw [← mulVec_mul, adj_mul]
    have : (V.det • (1 : M3 ℝ)).mulVec y = V.det • y := by ext <;> simp [smul_def, mulVec]
    rw [this, smul_smul, inv_mul_cancel₀ h, one_smul]

theorem clampAngle_pos {eps : ℝ} (h : 0 < eps) (v : V3 ℝ) : 0 < clampAngle eps v :=
  Real.sqrt_pos.mpr (lt_max_of_lt_right h)

theorem clampAngle_lt {eps : ℝ} {v : V3 ℝ} (h1 : eps < (2 * Real.pi) ^ 2) (h2 : norm v < 2 * Real.pi) :
    clampAngle eps v < 2 * Real.pi := by
  have hp := Real.pi_pos
  unfold clampAngle
  rw [Real.sqrt_lt' (by linarith)]
  apply max_lt _ h1
  rw [← norm_mul_self]
  nlinarith [norm_nonneg' v]

theorem clampAngle_eq {eps : ℝ} {v : V3 ℝ} (h : eps ≤ V3.normSq v) : clampAngle eps v = norm v := by
  unfold clampAngle Rot.norm
  rw [max_eq_left h]

@[simp] theorem linear_affine (A : M3 ℝ) (t : V3 ℝ) : M4.linear (M4.affine A t) = A := by
  ext <;> simp [M4.linear, M4.affine]

@[simp] theorem transl_affine (A : M3 ℝ) (t : V3 ℝ) : M4.transl (M4.affine A t) = t := by
  ext <;> simp [M4.transl, M4.affine]

@[simp] theorem lastCol_affine (A : M3 ℝ) (t : V3 ℝ) : M4.lastCol (M4.affine A t) = 0 := by
  ext <;> simp [M4.lastCol, M4.affine]

theorem close0_zero : close0 0 := by
  unfold close0
  simp

/-- A rigid motion in the row-vector convention. -/
def IsRigid (m : M4 ℝ) : Prop := ∃ A t, IsRot A ∧ m = M4.affine A t

/-- **C23.** The exponential of every twist is a rigid motion. -/
theorem se3Exp_rigid (eps : ℝ) (t v : V3 ℝ) : IsRigid (se3Exp eps t v) :=
  ⟨_, _, (exp_rot v).transpose, rfl⟩

/-- **C23 (exp ∘ log).** With the default threshold the logarithm of every rigid motion exists, has a
rotation of angle at most π, and its exponential is the motion. -/
theorem se3Exp_se3Log {m : M4 ℝ} (h : IsRigid m) (eps : ℝ) :
    ∃ t v, se3Log eps m = .ok (t, v) ∧ norm v ≤ Real.pi ∧ se3Exp (1 / 10 ^ 4) t v = m := by
  obtain ⟨A, T, hA, rfl⟩ := h
  have hp := Real.pi_gt_three
  obtain ⟨h1, h2⟩ := exp_log hA.transpose
  have hd := det_vMat_pos (log A.transpose) (phi := clampAngle (1 / 10 ^ 4) (log A.transpose))
    (clampAngle_pos (by norm_num) _) (clampAngle_lt (by nlinarith) (by linarith))
  obtain ⟨x, hx, hV, -⟩ := solve_spec hd.ne' T
  refine ⟨x, log A.transpose, ?_, h2, ?_⟩
  · unfold se3Log
    rw [lastCol_affine, if_neg (not_not.mpr close0_zero)]
    simp only [linear_affine, transl_affine, hx]
    rfl
  · unfold se3Exp
    rw [h1, hV, M3.transpose_transpose]

/-- **C23 (log ∘ exp).** Below angle π the logarithm of the exponential is the twist, if the two
functions use the same threshold (1e-4) or the angle is above both thresholds. -/
theorem se3Log_se3Exp {eps : ℝ} {t v : V3 ℝ} (h : norm v < Real.pi)
    (he : eps = 1 / 10 ^ 4 ∨ (eps ≤ V3.normSq v ∧ 1 / 10 ^ 4 ≤ V3.normSq v)) (eps' : ℝ) :
    se3Log eps' (se3Exp eps t v) = .ok (t, v) := by
  have hp := Real.pi_gt_three
  have hphi : clampAngle eps v = clampAngle (1 / 10 ^ 4) v := by
    rcases he with rfl | ⟨h1, h2⟩
    · rfl
    · rw [clampAngle_eq h1, clampAngle_eq h2]
  have hd := det_vMat_pos v (phi := clampAngle (1 / 10 ^ 4) v)
    (clampAngle_pos (by norm_num) _) (clampAngle_lt (by nlinarith) (by linarith))
  unfold se3Log se3Exp
  rw [lastCol_affine, if_neg (not_not.mpr close0_zero)]
  simp only [linear_affine, transl_affine, M3.transpose_transpose]
  rw [log_exp h, hphi]
  obtain ⟨x, hx, -, hu⟩ := solve_spec hd.ne' ((vMat v (clampAngle (1 / 10 ^ 4) v)).mulVec t)
  rw [hx, hu t rfl]
  rfl

/-- **C23 (documented range).** The documentation claims `log(exp(x)) = x` for angles below 2π; it is
false for every angle above π. -/
theorem se3Log_se3Exp_false {eps eps' : ℝ} {t v : V3 ℝ} (h : Real.pi < norm v) :
    se3Log eps' (se3Exp eps t v) ≠ .ok (t, v) := by
  intro hc
  obtain ⟨t', v', h1, h2, -⟩ := se3Exp_se3Log (se3Exp_rigid eps t v) eps'
  rw [hc] at h1
  obtain ⟨-, rfl⟩ := Prod.mk.inj (Except.ok.inj h1)
  linarith

/-- **C23 (threshold ignored).** `se3_log_map` does not pass its threshold on: with the same threshold
9 given to both functions, the round trip fails. -/
theorem se3_eps_ignored : se3Log 9 (se3Exp 9 ⟨1, 0, 0⟩ ⟨0, 0, 1 / 100⟩) ≠ .ok (⟨1, 0, 0⟩, ⟨0, 0, 1 / 100⟩) := by
  intro hc
  have hn : V3.normSq (⟨0, 0, 1 / 100⟩ : V3 ℝ) = 1 / 10 ^ 4 := by
    simp [V3.normSq, V3.dot]; norm_num
  obtain ⟨t', v', h1, h2, h3⟩ := se3Exp_se3Log (se3Exp_rigid 9 ⟨1, 0, 0⟩ ⟨0, 0, 1 / 100⟩) 9
  rw [hc] at h1
  obtain ⟨rfl, rfl⟩ := Prod.mk.inj (Except.ok.inj h1)
  have h4 := congrArg M4.transl h3
  unfold se3Exp at h4
  rw [transl_affine, transl_affine] at h4
  have c1 : clampAngle (1 / 10 ^ 4) ⟨0, 0, 1 / 100⟩ = 1 / 100 := by
    unfold clampAngle
    rw [hn, max_self, show (1 : ℝ) / 10 ^ 4 = (1 / 100) * (1 / 100) by norm_num]
    exact Real.sqrt_mul_self (by norm_num)
  have c2 : clampAngle 9 ⟨0, 0, 1 / 100⟩ = 3 := by
    unfold clampAngle
    rw [hn, max_eq_right (by norm_num), show (9 : ℝ) = 3 * 3 by norm_num]
    exact Real.sqrt_mul_self (by norm_num)
  rw [c1, c2] at h4
  have h5 := congrArg V3.y h4
  simp only [vMat, add_def, smul_def, mul_def, hat, one_def, mulVec] at h5
  norm_num at h5
  have hb := Real.cos_bound (x := 1 / 100) (by norm_num [abs_le])
  rw [abs_le] at hb
  have hc3 := Real.neg_one_le_cos 3
  norm_num at hb
  obtain ⟨hb1, hb2⟩ := hb
  linarith

/-- **C23 (inverse).** Above the threshold the exponential of the negated twist is the inverse motion. -/
theorem se3Exp_neg {eps : ℝ} {t v : V3 ℝ} (he : eps ≤ V3.normSq v) (h0 : v ≠ 0) :
    se3Exp eps (-t) (-v) * se3Exp eps t v = 1 := by
  have hn : V3.normSq (-v) = V3.normSq v := by simp [V3.normSq, V3.dot]
  have hnn : norm (-v) = norm v := by unfold Rot.norm; rw [hn]
  have hne : norm v ≠ 0 := fun h => h0 (norm_eq_zero'.mp h)
  unfold se3Exp
  rw [exp_neg, M3.transpose_transpose, clampAngle_eq he, clampAngle_eq (by rw [hn]; exact he), hnn]
  have hV : (exp v).mulVec ((vMat (-v) (norm v)).mulVec t) = (vMat v (norm v)).mulVec t := by
    unfold exp
    rw [← axisAngleToMatFast_eq, ← mulVec_mul]
    congr 1
    have h1 := mul_sinc (norm v)
    have h2 := norm_mul_self v
    have h00 : ¬ norm v * norm v = 0 := by simpa using hne
    have e1 : (norm v - Real.sin (norm v)) / norm v ^ 3 * (norm v * norm v) = 1 - sinc (norm v) := by
      rw [← h1]; field_simp
    have e2 : (1 - Real.cos (norm v)) / (norm v * norm v) * (norm v * norm v) = 1 - Real.cos (norm v) := by
      field_simp
    have e3 := Real.sin_sq_add_cos_sq (norm v)
    rw [← h1] at e3
    have e4 : sinc (norm v) ^ 2 + (norm v * norm v) * ((1 - Real.cos (norm v)) / (norm v * norm v)) ^ 2
        = 2 * ((1 - Real.cos (norm v)) / (norm v * norm v)) := by
      have : sinc (norm v) ^ 2 = (1 - Real.cos (norm v) ^ 2) / (norm v * norm v) := by
        rw [eq_div_iff h00]; linarith
      rw [this]; field_simp; ring
    unfold axisAngleToMatFast vMat
    simp only [if_neg h00, pow_two (norm v)]
    rw [h2] at *
    generalize (norm v - Real.sin (norm v)) / norm v ^ 3 = B at *
    generalize (1 - Real.cos (norm v)) / V3.normSq v = A at *
    generalize sinc (norm v) = s at *
    clear e3 e2 h1
    simp only [V3.normSq, V3.dot] at e1 e4
    simp only [add_def, smul_def, mul_def, hat, skew, one_def, V3.neg_x, V3.neg_y, V3.neg_z, M3.mk.injEq]
    refine ⟨?_, ?_, ?_, ?_, ?_, ?_, ?_, ?_, ?_⟩ <;> grind
  have hr := (exp_rot v).eqs
  generalize (vMat v (norm v)).mulVec t = w at *
  have hneg : (vMat (-v) (norm v)).mulVec (-t) = -(exp v).transpose.mulVec w := by
    rw [← hV, ← mulVec_mul, (exp_rot v).orth']
    ext <;> simp [mulVec] <;> ring
  rw [hneg]
  obtain ⟨r00, r11, r22, r01, r02, r12, c00, c11, c22, c01, c02, c12, -⟩ := hr
  generalize exp v = E at *
  ext i j
  fin_cases i <;> fin_cases j <;>
    simp [M4.affine, Matrix.mul_apply, Fin.sum_univ_four, transpose, mulVec] <;> grind

/-! ### Rotation angles -/

theorem rot_eq_exp {m : M3 ℝ} (h : IsRot m) : ∃ v, norm v ≤ Real.pi ∧ m = exp v :=
  ⟨log m, (exp_log h).2, (exp_log h).1.symm⟩

/-- Half of trace minus one is the cosine of the angle. -/
theorem trace_exp (v : V3 ℝ) : ((exp v).m00 + (exp v).m11 + (exp v).m22 - 1) * (1 / 2) = Real.cos (norm v) := by
  have := (omega_axisAngle v).2
  unfold M3.trace at this
  unfold exp
  linarith

/-- **C23 (angle).** For a rotation by `v` the trace check never fails; `cos_angle=True` gives the cosine
of the angle and `cos_bound ≤ 0` the angle itself. -/
theorem rotationAngle_exp {v : V3 ℝ} (h : norm v ≤ Real.pi) {eps cb : ℝ} (he : 0 ≤ eps) :
    rotationAngle (exp v) eps true cb = .ok (Real.cos (norm v))
    ∧ (cb ≤ 0 → rotationAngle (exp v) eps false cb = .ok (norm v))
    ∧ (0 < cb → cb ≤ 1 → -(1 - cb) < Real.cos (norm v) → Real.cos (norm v) < 1 - cb →
        rotationAngle (exp v) eps false cb = .ok (norm v)) := by
  have ht := trace_exp v
  have hc1 := Real.cos_le_one (norm v)
  have hc2 := Real.neg_one_le_cos (norm v)
  have hg : ¬ ((exp v).m00 + (exp v).m11 + (exp v).m22 < -1 - eps
      ∨ (exp v).m00 + (exp v).m11 + (exp v).m22 > 3 + eps) := by
    rintro (h | h) <;> linarith
  refine ⟨?_, ?_, ?_⟩
  · simp only [rotationAngle, if_neg hg, if_true, ht]
  · intro hcb
    simp only [rotationAngle, if_neg hg, ht, Bool.false_eq_true, if_false, if_neg (not_lt.mpr hcb)]
    rw [Real.arccos_cos (norm_nonneg' v) h]
  · intro h1 h2 h3 h4
    simp only [rotationAngle, if_neg hg, ht, Bool.false_eq_true, if_false, if_pos h1, acosExtrap]
    rw [if_neg (by linarith), if_neg (by rintro (h | h) <;> linarith), if_neg (by linarith), if_neg (by linarith),
      Real.arccos_cos (norm_nonneg' v) h]

/-- **C23 (relative angle).** The relative angle is symmetric … -/
theorem relativeAngle_symm (a b : M3 ℝ) (c : Bool) (cb eps : ℝ) :
    relativeAngle a b c cb eps = relativeAngle b a c cb eps := by
  unfold relativeAngle rotationAngle
  have : (a * b.transpose).m00 + (a * b.transpose).m11 + (a * b.transpose).m22
      = (b * a.transpose).m00 + (b * a.transpose).m11 + (b * a.transpose).m22 := by
    simp only [mul_def, transpose]; ring
  simp only [this]

/-- … and without the bound it is zero exactly for equal rotations. -/
theorem relativeAngle_eq_zero {a b : M3 ℝ} (ha : IsRot a) (hb : IsRot b) {cb eps : ℝ} (hcb : cb ≤ 0)
    (he : 0 ≤ eps) : relativeAngle a b false cb eps = .ok 0 ↔ a = b := by
  obtain ⟨v, hv, hm⟩ := rot_eq_exp (ha.mul hb.transpose)
  unfold relativeAngle
  rw [hm, (rotationAngle_exp hv he).2.1 hcb]
  constructor
  · intro h
    have h0 : v = 0 := norm_eq_zero'.mp (Except.ok.inj h)
    subst h0
    have h1 : exp 0 = 1 := by
      unfold exp
      rw [← axisAngleToMatFast_eq]
      simp [axisAngleToMatFast, add_def, smul_def, mul_def, skew]
    rw [h1] at hm
    have : a * b.transpose * b = b := by rw [hm, one_mul]
    rwa [mul_assoc, hb.orth', mul_one] at this
  · rintro rfl
    rw [ha.orth] at hm
    have h1 := trace_exp v
    rw [← hm] at h1
    have h2 : Real.cos (norm v) = 1 := by rw [← h1]; simp; norm_num
    have h3 : Real.arccos (Real.cos (norm v)) = 0 := by rw [h2, Real.arccos_one]
    rw [Real.arccos_cos (norm_nonneg' v) hv] at h3
    rw [h3]

/-- **C23 (relative angle, default bound).** With a positive bound the relative angle of a rotation and
itself is a positive number. -/
theorem relativeAngle_self_pos {a : M3 ℝ} (ha : IsRot a) {cb eps : ℝ} (h0 : 0 < cb) (h1 : cb ≤ 1)
    (he : 0 ≤ eps) : ∃ x, relativeAngle a a false cb eps = .ok x ∧ 0 < x := by
  unfold relativeAngle
  rw [ha.orth]
  have hg : ¬ ((1 : ℝ) + 1 + 1 < -1 - eps ∨ (1 : ℝ) + 1 + 1 > 3 + eps) := by
    rintro (h | h) <;> linarith
  simp only [rotationAngle, one_def, if_neg hg, Bool.false_eq_true, if_false, if_pos h0, acosExtrap]
  rw [if_neg (by linarith), if_neg (by rintro (h | h) <;> linarith), if_neg (by linarith), if_pos (by linarith)]
  refine ⟨_, rfl, ?_⟩
  unfold acosLin dacos
  generalize hb : 1 - cb = b
  have hb0 : 0 ≤ b := by linarith
  have hb1 : b < 1 := by linarith
  have hpos : 0 < 1 - b * b := by nlinarith
  have hs := Real.sqrt_pos.mpr hpos
  have hss := Real.mul_self_sqrt hpos.le
  have harc : 0 < Real.arccos b := Real.arccos_pos.mpr hb1
  have hlt : Real.sqrt (1 - b * b) < Real.arccos b := by
    have := Real.sin_lt harc
    rwa [Real.sin_arccos, pow_two] at this
  have hle : (1 - b) / Real.sqrt (1 - b * b) ≤ Real.sqrt (1 - b * b) := by
    rw [div_le_iff₀ hs, hss]; nlinarith
  have : (((1 : ℝ) + 1 + 1 - 1) * (1 / 2) - b) * (-1 / Real.sqrt (1 - b * b))
      = -((1 - b) / Real.sqrt (1 - b * b)) := by ring
  rw [this]
  linarith

/-- The value of `acos_linear_extrapolation` where it succeeds. -/
noncomputable def extrap (lo up x : ℝ) : ℝ :=
  if x ≤ lo then acosLin x lo else if x ≥ up then acosLin x up else Real.arccos x

/-- **C23 (extrapolated arccos).** It succeeds exactly for bounds in order inside (-1, 1), equals arccos
between the bounds (inclusive), and is strictly decreasing on the whole line. -/
theorem acosExtrap_spec (lo up : ℝ) :
    ((∃ x y, acosExtrap x lo up = .ok y) ↔ (-1 < lo ∧ lo ≤ up ∧ up < 1))
    ∧ (-1 < lo → lo ≤ up → up < 1 → (∀ x, acosExtrap x lo up = .ok (extrap lo up x))
      ∧ (∀ x, lo ≤ x → x ≤ up → extrap lo up x = Real.arccos x) ∧ StrictAnti (extrap lo up)) := by
  refine ⟨⟨?_, ?_⟩, ?_⟩
  · rintro ⟨x, y, h⟩
    unfold acosExtrap at h
    by_cases h1 : lo > up
    · rw [if_pos h1] at h; cases h
    · by_cases h2 : lo ≤ -1 ∨ up ≥ 1
      · rw [if_neg h1, if_pos h2] at h; cases h
      · push Not at h1 h2
        exact ⟨h2.1, h1, h2.2⟩
  · rintro ⟨h1, h2, h3⟩
    refine ⟨0, extrap lo up 0, ?_⟩
    unfold acosExtrap extrap
    rw [if_neg (by linarith), if_neg (by rintro (h | h) <;> linarith)]
  · intro h1 h2 h3
    have hmid : ∀ x, lo ≤ x → x ≤ up → extrap lo up x = Real.arccos x := by
      intro x hx1 hx2
      unfold extrap
      split_ifs with h h'
      · rw [le_antisymm h hx1]; simp [acosLin]
      · rw [le_antisymm hx2 h']; simp [acosLin]
      · rfl
    refine ⟨?_, hmid, ?_⟩
    · intro x
      unfold acosExtrap extrap
      rw [if_neg (by linarith), if_neg (by rintro (h | h) <;> linarith)]
    · have hd : ∀ z, -1 < z → z < 1 → dacos z < 0 := by
        intro z hz1 hz2
        unfold dacos
        exact div_neg_of_neg_of_pos (by norm_num) (Real.sqrt_pos.mpr (by nlinarith))
      have hlo : ∀ x ≤ lo, extrap lo up x = acosLin x lo := fun x hx => if_pos hx
      have hup : ∀ x ≥ up, extrap lo up x = acosLin x up := by
        intro x hx
        unfold extrap
        split_ifs with h
        · have e1 : x = lo := le_antisymm h (by linarith)
          have e2 : lo = up := le_antisymm h2 (by linarith)
          rw [e2]
        · rfl
      have dlo := hd lo h1 (by linarith)
      have dup := hd up (by linarith) h3
      have s1 : ∀ x y, x < y → y ≤ lo → extrap lo up y < extrap lo up x := by
        intro x y hxy hy
        rw [hlo y hy, hlo x (by linarith)]
        unfold acosLin
        nlinarith
      have s3 : ∀ x y, x < y → up ≤ x → extrap lo up y < extrap lo up x := by
        intro x y hxy hx
        rw [hup y (by linarith), hup x hx]
        unfold acosLin
        nlinarith
      have s2 : ∀ x y, x < y → lo ≤ x → y ≤ up → extrap lo up y < extrap lo up x := by
        intro x y hxy hx hy
        rw [hmid x hx (by linarith), hmid y (by linarith) hy]
        exact Real.strictAntiOn_arccos ⟨by linarith, by linarith⟩ ⟨by linarith, by linarith⟩ hxy
      have s23 : ∀ x y, x < y → lo ≤ x → extrap lo up y < extrap lo up x := by
        intro x y hxy hx
        rcases le_or_gt y up with hy | hy
        · exact s2 x y hxy hx hy
        · rcases le_or_gt up x with hx' | hx'
          · exact s3 x y hxy hx'
          · exact lt_trans (s3 up y hy le_rfl) (s2 x up hx' hx le_rfl)
      intro x y hxy
      rcases le_or_gt lo x with hx | hx
      · exact s23 x y hxy hx
      · rcases le_or_gt y lo with hy | hy
        · exact s1 x y hxy hy
        · exact lt_trans (s23 lo y hy le_rfl) (s1 x lo hx le_rfl)

/-! ### Examples -/

example : hatInv [hat (⟨1, 2, 3⟩ : V3 ℚ)] = .ok [⟨1, 2, 3⟩] := hatInv_hat [_] (by simp)

example : hatInv [(⟨0, 1, 0, 1, 0, 0, 0, 0, 0⟩ : M3 ℚ)] = .error .value :=
  hatInv_error (m := ⟨0, 1, 0, 1, 0, 0, 0, 0, 0⟩) (by simp) (e := 2) (by simp [symEntries]; norm_num) (by norm_num)

/-- A twist above the documented range. -/
example : se3Log (1 / 10 ^ 4) (se3Exp (1 / 10 ^ 4) ⟨1, 2, 3⟩ ⟨0, 0, 4⟩) ≠ .ok (⟨1, 2, 3⟩, ⟨0, 0, 4⟩) := by
  apply se3Log_se3Exp_false
  have : norm (⟨0, 0, 4⟩ : V3 ℝ) = 4 := by
    simp only [Rot.norm, V3.normSq, V3.dot, mul_zero, zero_add]
    exact Real.sqrt_mul_self (by norm_num)
  rw [this]
  exact Real.pi_lt_four

example : se3Log 0 (se3Exp (1 / 10 ^ 4) ⟨1, 2, 3⟩ ⟨0, 0, 2⟩) = .ok (⟨1, 2, 3⟩, ⟨0, 0, 2⟩) := by
  apply se3Log_se3Exp _ (Or.inl rfl)
  have : norm (⟨0, 0, 2⟩ : V3 ℝ) = 2 := by
    simp only [Rot.norm, V3.normSq, V3.dot, mul_zero, zero_add]
    exact Real.sqrt_mul_self (by norm_num)
  rw [this]
  linarith [Real.pi_gt_three]

end P3D.So3
