/-
C21 (second part): axis-angle vectors; C22: the 6D representation.
-/
import Verif.QuaternionProps
import Verif.EulerProps

set_option linter.unusedSectionVars false

namespace P3D.Rot
open M3

theorem normSq_nonneg' (v : V3 ℝ) : 0 ≤ V3.normSq v := by
  simp only [V3.normSq, V3.dot]
  nlinarith [mul_self_nonneg v.x, mul_self_nonneg v.y, mul_self_nonneg v.z]

theorem norm_nonneg' (v : V3 ℝ) : 0 ≤ norm v := Real.sqrt_nonneg _

theorem norm_mul_self (v : V3 ℝ) : norm v * norm v = V3.normSq v := Real.mul_self_sqrt (normSq_nonneg' v)

theorem norm_eq_zero' {v : V3 ℝ} : norm v = 0 ↔ v = 0 := by
  constructor
  · intro h
    have h2 := norm_mul_self v
    rw [h] at h2
    simp only [V3.normSq, V3.dot, mul_zero] at h2
    have h3 := mul_self_nonneg v.x
    have h4 := mul_self_nonneg v.y
    have h5 := mul_self_nonneg v.z
    ext <;> simp only [V3.zero_x, V3.zero_y, V3.zero_z] <;> apply mul_self_eq_zero.mp <;> linarith
  · rintro rfl
    simp [norm, V3.normSq, V3.dot]

theorem norm_smul' (c : ℝ) (v : V3 ℝ) : norm (c • v) = |c| * norm v := by
  unfold norm
  rw [V3.normSq_smul, Real.sqrt_mul (sq_nonneg c), Real.sqrt_sq_eq_abs]

theorem mul_sinc (x : ℝ) : x * sinc x = Real.sin x := by
  unfold sinc
  by_cases h : x = 0
  · simp [h]
  · rw [Real.sinc_of_ne_zero h]; field_simp

theorem sinc_pos {x : ℝ} (h0 : 0 ≤ x) (h1 : x < Real.pi) : 0 < sinc x := by
  unfold sinc
  rcases h0.eq_or_lt with rfl | h
  · simp
  · rw [Real.sinc_of_ne_zero h.ne']
    exact div_pos (Real.sin_pos_of_pos_of_lt_pi h h1) h

/-- The factor used by `axis_angle_to_quaternion`. -/
theorem half_sinc (a : ℝ) : 1 / 2 * sinc (a * (1 / 2)) * a = Real.sin (a / 2) := by
  have := mul_sinc (a * (1 / 2))
  rw [show a / 2 = a * (1 / 2) by ring, ← this]; ring

/-- **C21.** The quaternion of an axis-angle vector is a unit quaternion. -/
theorem axisAngleToQuat_unit (v : V3 ℝ) : (axisAngleToQuat v).normSq = 1 := by
  have h := half_sinc (norm v)
  have hn := norm_mul_self v
  have ht := Real.sin_sq_add_cos_sq (norm v / 2)
  simp only [axisAngleToQuat, Q.normSq, show norm v * (1 / 2) = norm v / 2 by ring] at *
  generalize 1 / 2 * sinc (norm v / 2) = s at *
  simp only [V3.normSq, V3.dot] at hn
  rw [← h] at ht
  linear_combination ht - s ^ 2 * hn

/-- **C21.** Axis-angle matrices are rotations. -/
theorem axisAngleToMat_rot (v : V3 ℝ) : IsRot (axisAngleToMat v) :=
  quatToMat_rot (by rw [axisAngleToQuat_unit]; exact one_ne_zero)

/-- **C21 (fast path).** The Rodrigues formula and the way over quaternions give the same matrix. -/
theorem axisAngleToMatFast_eq (v : V3 ℝ) : axisAngleToMatFast v = axisAngleToMat v := by
  have hu := axisAngleToQuat_unit v
  by_cases h0 : norm v = 0
  · have hv := norm_eq_zero'.mp h0
    subst hv
    unfold axisAngleToMat
    simp only [quatToMat, hu]
    simp [axisAngleToMatFast, axisAngleToQuat, add_def, smul_def, mul_def, skew]
  · have h := half_sinc (norm v)
    have h1 := mul_sinc (norm v)
    have hn := norm_mul_self v
    have ht := Real.sin_sq_add_cos_sq (norm v / 2)
    have hs : Real.sin (norm v) = 2 * Real.sin (norm v / 2) * Real.cos (norm v / 2) := by
      rw [← Real.sin_two_mul]; congr 1; ring
    have hc : Real.cos (norm v) = 1 - 2 * Real.sin (norm v / 2) ^ 2 := by
      have e := Real.cos_two_mul (norm v / 2)
      rw [show 2 * (norm v / 2) = norm v by ring] at e
      linarith
    have h00 : ¬ norm v * norm v = 0 := by simpa using h0
    unfold axisAngleToMat
    simp only [quatToMat, hu]
    simp only [axisAngleToMatFast, axisAngleToQuat, show norm v * (1 / 2) = norm v / 2 by ring, if_neg h00] at *
    generalize hss : 1 / 2 * sinc (norm v / 2) = s at *
    have e1 : sinc (norm v) = 2 * s * Real.cos (norm v / 2) := by
      apply mul_left_cancel₀ h0
      rw [h1, hs, ← h]; ring
    have e2 : (1 - Real.cos (norm v)) / (norm v * norm v) = 2 * s ^ 2 := by
      rw [hc, ← h]; field_simp; ring
    rw [e1, e2]
    simp only [add_def, smul_def, mul_def, skew, one_def, M3.mk.injEq]
    refine ⟨?_, ?_, ?_, ?_, ?_, ?_, ?_, ?_, ?_⟩ <;> ring

theorem atan2_unit {n r : ℝ} (hn : 0 ≤ n) (h : r * r + n * n = 1) :
    Real.cos (atan2 n r) = r ∧ Real.sin (atan2 n r) = n ∧ 0 ≤ atan2 n r ∧ atan2 n r ≤ Real.pi := by
  have := atan2_of_sq (y := n) (x := r) (c := 1) one_pos (by linarith)
  rw [one_mul, one_mul] at this
  refine ⟨this.1, this.2, ?_, Complex.arg_le_pi _⟩
  exact Complex.arg_nonneg_iff.mpr hn

/-- Data of `quaternion_to_axis_angle` for a unit quaternion other than -1. -/
theorem quatToAxisAngle_data {q : Q ℝ} (hq : q.normSq = 1) (hne : q.r ≠ -1) :
    let half := atan2 (norm q.im) q.r
    Real.cos half = q.r ∧ 0 ≤ half ∧ half < Real.pi ∧ norm (quatToAxisAngle q) = 2 * half
      ∧ q.im = (1 / 2 * sinc half) • quatToAxisAngle q := by
  intro half
  have hn := norm_mul_self q.im
  have h1 : q.r * q.r + norm q.im * norm q.im = 1 := by
    rw [hn]; simp only [V3.normSq, V3.dot, Q.im]; unfold Q.normSq at hq; linarith
  obtain ⟨c, s, p0, p1⟩ := atan2_unit (norm_nonneg' _) h1
  have hlt : half < Real.pi := by
    refine lt_of_le_of_ne p1 ?_
    intro he
    have : Real.cos half = q.r := c
    rw [he, Real.cos_pi] at this
    exact hne this.symm
  have hpos := sinc_pos p0 hlt
  have hn2 : norm q.im = half * sinc half := by rw [mul_sinc]; exact s.symm
  have hk : (0 : ℝ) < 1 / 2 * sinc half := by linarith
  refine ⟨c, p0, hlt, ?_, ?_⟩
  · show norm ((1 / 2 * sinc half)⁻¹ • q.im) = _
    rw [norm_smul', abs_of_pos (inv_pos.mpr hk), hn2]
    have : sinc half ≠ 0 := hpos.ne'
    field_simp
  · show q.im = (1 / 2 * sinc half) • ((1 / 2 * sinc half)⁻¹ • q.im)
    rw [smul_smul, mul_inv_cancel₀ hk.ne', one_smul]

/-- **C21.** Quaternion to axis-angle and back is the identity for every unit quaternion except -1. -/
theorem axisAngleToQuat_quatToAxisAngle {q : Q ℝ} (hq : q.normSq = 1) (hne : q.r ≠ -1) :
    axisAngleToQuat (quatToAxisAngle q) = q := by
  obtain ⟨c, p0, p1, hn, him⟩ := quatToAxisAngle_data hq hne
  unfold axisAngleToQuat
  simp only
  rw [hn]
  rw [show 2 * atan2 (norm q.im) q.r * (1 / 2) = atan2 (norm q.im) q.r by ring, c]
  generalize 1 / 2 * sinc (atan2 (norm q.im) q.r) = k at him
  have hx := congrArg V3.x him
  have hy := congrArg V3.y him
  have hz := congrArg V3.z him
  simp only [Q.im, V3.smul_x, V3.smul_y, V3.smul_z] at hx hy hz
  ext
  · rfl
  · simp only; rw [hx]; ring
  · simp only; rw [hy]; ring
  · simp only; rw [hz]; ring

theorem im_axisAngle (v : V3 ℝ) :
    (axisAngleToQuat v).im = (1 / 2 * sinc (norm v * (1 / 2))) • v := by
  ext <;> simp only [axisAngleToQuat, Q.im, V3.smul_x, V3.smul_y, V3.smul_z] <;> ring

/-- **C21.** Axis-angle to quaternion and back is the identity for angles below 2π. -/
theorem quatToAxisAngle_axisAngleToQuat {v : V3 ℝ} (h : norm v < 2 * Real.pi) :
    quatToAxisAngle (axisAngleToQuat v) = v := by
  have h0 : 0 ≤ norm v * (1 / 2) := by have := norm_nonneg' v; linarith
  have h1 : norm v * (1 / 2) < Real.pi := by linarith
  have hs := sinc_pos h0 h1
  have him := im_axisAngle v
  have hnim : norm (axisAngleToQuat v).im = Real.sin (norm v * (1 / 2)) := by
    rw [him, norm_smul', abs_of_pos (by linarith), half_sinc]; congr 1; ring
  have hr : (axisAngleToQuat v).r = Real.cos (norm v * (1 / 2)) := rfl
  have hat : atan2 (norm (axisAngleToQuat v).im) (axisAngleToQuat v).r = norm v * (1 / 2) := by
    rw [hnim, hr]
    have := atan2_mul (k := 1) one_pos (by have := Real.pi_pos; linarith) h1.le
    simpa using this
  unfold quatToAxisAngle
  simp only
  rw [hat, him, smul_smul, inv_mul_cancel₀ (by linarith), one_smul]

/-- **C21.** `axis_angle_to_matrix(matrix_to_axis_angle(R)) = R` for every rotation, and the returned
angle is at most π. -/
theorem axisAngleToMat_matToAxisAngle {m : M3 ℝ} (h : IsRot m) :
    axisAngleToMat (matToAxisAngle m) = m ∧ norm (matToAxisAngle m) ≤ Real.pi := by
  obtain ⟨h1, h2, h3⟩ := matToQuat_spec h
  have hne : (matToQuat m).r ≠ -1 := by linarith
  constructor
  · unfold axisAngleToMat matToAxisAngle
    rw [axisAngleToQuat_quatToAxisAngle h2 hne, h1]
  · obtain ⟨c, p0, p1, hn, -⟩ := quatToAxisAngle_data h2 hne
    unfold matToAxisAngle
    rw [hn]
    have hr : 0 ≤ Real.cos (atan2 (norm (matToQuat m).im) (matToQuat m).r) := by rw [c]; exact h3
    by_contra hc
    push Not at hc
    have := Real.cos_neg_of_pi_div_two_lt_of_lt (x := atan2 (norm (matToQuat m).im) (matToQuat m).r)
      (by linarith) (by linarith)
    linarith

/-- **C21.** `matrix_to_axis_angle(axis_angle_to_matrix(v)) = v` for angles below π. -/
theorem matToAxisAngle_axisAngleToMat {v : V3 ℝ} (h : norm v < Real.pi) :
    matToAxisAngle (axisAngleToMat v) = v := by
  have hpi := Real.pi_pos
  have hr : 0 < (axisAngleToQuat v).r := by
    have h0 := norm_nonneg' v
    exact Real.cos_pos_of_mem_Ioo ⟨by linarith, by linarith⟩
  unfold matToAxisAngle axisAngleToMat
  have := (matToQuat_quatToMat (axisAngleToQuat_unit v) (argmax4_spec _)).2 hr.ne'
  rw [matToQuat, this]
  have hstd : standardize (axisAngleToQuat v) = axisAngleToQuat v := by
    unfold standardize; rw [if_neg (not_lt.mpr hr.le)]
  rw [hstd, quatToAxisAngle_axisAngleToQuat (by linarith)]

/-! ### The fast inverse -/

/-- Antisymmetric part and trace of an axis-angle matrix. -/
theorem omega_axisAngle (v : V3 ℝ) : omega (axisAngleToMat v) = (2 * sinc (norm v)) • v
    ∧ (axisAngleToMat v).trace - 1 = 2 * Real.cos (norm v) := by
  rw [← axisAngleToMatFast_eq]
  have hn := norm_mul_self v
  simp only [V3.normSq, V3.dot] at hn
  constructor
  · simp only [omega, axisAngleToMatFast]
    generalize (1 - Real.cos (norm v)) / _ = t
    ext <;> simp only [add_def, smul_def, mul_def, skew, one_def, V3.smul_x, V3.smul_y, V3.smul_z] <;> ring
  · simp only [M3.trace, axisAngleToMatFast]
    by_cases h0 : norm v = 0
    · rw [h0, norm_eq_zero'.mp h0]
      simp [add_def, smul_def, mul_def, skew]
      norm_num
    · have h00 : ¬ norm v * norm v = 0 := by simpa using h0
      rw [if_neg h00]
      have : (1 - Real.cos (norm v)) / (norm v * norm v) * (norm v * norm v) = 1 - Real.cos (norm v) := by
        field_simp
      generalize (1 - Real.cos (norm v)) / _ = t at *
      simp only [add_def, smul_def, mul_def, skew, one_def]
      linear_combination -2 * this + 2 * t * hn

/-- The angle computed by the fast path is the angle of the rotation. -/
theorem fastAngle_axisAngle {v : V3 ℝ} (h : norm v ≤ Real.pi) : fastAngle (axisAngleToMat v) = norm v := by
  obtain ⟨h1, h2⟩ := omega_axisAngle v
  have h0 := norm_nonneg' v
  have hsin : 0 ≤ Real.sin (norm v) := Real.sin_nonneg_of_nonneg_of_le_pi h0 h
  have hs : 0 ≤ norm v * sinc (norm v) := by rw [mul_sinc]; exact hsin
  have hno : norm (omega (axisAngleToMat v)) = 2 * Real.sin (norm v) := by
    rw [h1, norm_smul']
    have : |2 * sinc (norm v)| * norm v = |2 * sinc (norm v) * norm v| := by
      rw [abs_mul _ (norm v), abs_of_nonneg h0]
    rw [this, show 2 * sinc (norm v) * norm v = 2 * (norm v * sinc (norm v)) by ring,
      abs_of_nonneg (by linarith), mul_sinc]
  unfold fastAngle
  rw [hno, h2]
  exact atan2_mul (by norm_num) (by have := Real.pi_pos; linarith) h

/-- **C21 (fast inverse).** For rotation vectors whose angle is below π and not within the tolerance of
0 or π, the fast path returns exactly the vectors, for batches of every size. -/
theorem matToAxisAngleFast_eq (vs : List (V3 ℝ)) (h : ∀ v ∈ vs, norm v < Real.pi ∧
    ¬ IsClose (norm v) Real.pi ∧ ¬ IsClose (norm v) 0) :
    matToAxisAngleFast (vs.map axisAngleToMat) = vs := by
  unfold matToAxisAngleFast
  simp only [List.map_map]
  conv_rhs => rw [← List.map_id vs]
  apply List.map_congr_left
  intro v hv
  obtain ⟨h1, h2, h3⟩ := h v hv
  have h2' : ¬ IsClose (fastAngle (axisAngleToMat v)) Real.pi := by rw [fastAngle_axisAngle h1.le]; exact h2
  have h3' : ¬ IsClose (fastAngle (axisAngleToMat v)) 0 := by rw [fastAngle_axisAngle h1.le]; exact h3
  simp only [Function.comp_apply]
  rw [if_neg h2', if_neg h3', fastAngle_axisAngle h1.le, (omega_axisAngle v).1, smul_smul, smul_smul, id_eq]
  have := (sinc_pos (norm_nonneg' v) h1).ne'
  rw [show (sinc (norm v))⁻¹ * (1 / 2) * (2 * sinc (norm v)) = 1 by field_simp, one_smul]

/-- Half turn about the x axis. -/
def halfTurnX : M3 ℝ := ⟨1, 0, 0, 0, -1, 0, 0, 0, -1⟩

theorem fastAngle_halfTurnX : fastAngle halfTurnX = Real.pi := by
  have h : norm (omega halfTurnX) = 0 := norm_eq_zero'.mpr (by ext <;> simp [omega, halfTurnX])
  unfold fastAngle
  rw [h]
  have e : (⟨halfTurnX.trace - 1, 0⟩ : ℂ) = ((-2 : ℝ) : ℂ) := by
    apply Complex.ext <;> simp [halfTurnX, M3.trace] ; norm_num
  rw [atan2, e, Complex.arg_ofReal_of_neg (by norm_num)]

theorem isClose_self (x : ℝ) : IsClose x x := by
  unfold IsClose
  rw [sub_self, abs_zero]
  positivity

/-- **C21 (fast inverse, batch coupling).** The fast path divides by the norm of the whole batch of
half turns: in a batch of `k` copies of the half turn about x every result has angle π/√k. -/
theorem matToAxisAngleFast_batch (k : Nat) :
    matToAxisAngleFast (List.replicate k halfTurnX)
      = List.replicate k ⟨Real.pi / Real.sqrt k, 0, 0⟩ := by
  have hc : IsClose (fastAngle halfTurnX) Real.pi := by rw [fastAngle_halfTurnX]; exact isClose_self _
  have hN : V3.normSq (fastN halfTurnX) = 1 := by
    simp [V3.normSq, V3.dot, fastN, halfTurnX]
    norm_num
  unfold matToAxisAngleFast
  simp only
  rw [List.filter_eq_self.mpr (by
    intro m hm; rw [List.eq_of_mem_replicate hm]; simp only [decide_eq_true_eq]; exact hc)]
  rw [List.map_replicate, List.map_replicate, List.sum_replicate, hN, if_pos hc, fastAngle_halfTurnX]
  congr 1
  ext <;> simp [fastN, halfTurnX]; ring

/-- So from two half turns on, the results are not the rotations that were given. -/
theorem matToAxisAngleFast_wrong :
    (matToAxisAngleFast [halfTurnX, halfTurnX]).map axisAngleToMat ≠ [halfTurnX, halfTurnX] := by
  have h := matToAxisAngleFast_batch 2
  simp only [List.replicate_succ, List.replicate_zero] at h
  rw [h]
  intro hc
  have h1 : axisAngleToMat ⟨Real.pi / Real.sqrt (2 : ℕ), 0, 0⟩ = halfTurnX := by
    simpa using hc
  have hs2 : (1 : ℝ) < Real.sqrt (2 : ℕ) := by
    rw [Real.lt_sqrt (by norm_num)]; norm_num
  have hpi := Real.pi_pos
  have hlt : Real.pi / Real.sqrt (2 : ℕ) < Real.pi := div_lt_self hpi hs2
  have h0 : 0 ≤ Real.pi / Real.sqrt (2 : ℕ) := by positivity
  have hn : norm ⟨Real.pi / Real.sqrt (2 : ℕ), 0, 0⟩ = Real.pi / Real.sqrt (2 : ℕ) := by
    simp only [norm, V3.normSq, V3.dot, mul_zero, add_zero]
    exact Real.sqrt_mul_self h0
  have h2 := fastAngle_axisAngle (v := ⟨Real.pi / Real.sqrt (2 : ℕ), 0, 0⟩) (by rw [hn]; exact hlt.le)
  rw [h1, fastAngle_halfTurnX, hn] at h2
  linarith

/-- **C21 (fast inverse, half turns about axes orthogonal to x).** The vector that is normalised is 0,
so the code computes 0/0. -/
theorem fastN_perp : fastN ⟨-1, 0, 0, 0, 1, 0, 0, 0, -1⟩ = 0
    ∧ IsRot (⟨-1, 0, 0, 0, 1, 0, 0, 0, -1⟩ : M3 ℝ) := by
  constructor
  · ext <;> simp [fastN]
  · constructor
    · simp [mul_def, transpose]
    · simp [M3.det]

/-! ### C22: the 6D representation -/

theorem norm_normalize {v : V3 ℝ} (h : 1 / 10 ^ 12 ≤ norm v) :
    V3.normSq (normalize v) = 1 := by
  unfold normalize
  rw [max_eq_left h, V3.normSq_smul, ← norm_mul_self]
  have : norm v ≠ 0 := by
    have : (0 : ℝ) < 1 / 10 ^ 12 := by norm_num
    linarith
  field_simp

theorem ofRows_rot {a b : V3 ℝ} (ha : V3.normSq a = 1) (hb : V3.normSq b = 1) (hab : V3.dot a b = 0) :
    IsRot (ofRows a b (V3.cross a b)) := by
  simp only [V3.normSq, V3.dot] at ha hb hab
  constructor
  · simp only [ofRows, mul_def, transpose, one_def, V3.cross, M3.mk.injEq]
    refine ⟨?_, ?_, ?_, ?_, ?_, ?_, ?_, ?_, ?_⟩ <;> grind
  · simp only [ofRows, M3.det, V3.cross]
    grind

/-- **C22.** Two vectors whose first is at least 1e-12 long and whose second is at least 1e-12 away from
the line of the first give a rotation matrix. -/
theorem rot6d_rot {a1 a2 : V3 ℝ} (h1 : 1 / 10 ^ 12 ≤ norm a1)
    (h2 : 1 / 10 ^ 12 ≤ norm (a2 - V3.dot (normalize a1) a2 • normalize a1)) :
    IsRot (rot6dToMat a1 a2) := by
  apply ofRows_rot (norm_normalize h1) (norm_normalize h2)
  have hn := norm_normalize h1
  generalize normalize a1 = b1 at *
  unfold normalize
  rw [V3.dot_smul]
  have : V3.dot b1 (a2 - V3.dot b1 a2 • b1) = V3.dot b1 a2 - V3.dot b1 a2 * V3.normSq b1 := by
    simp only [V3.dot, V3.normSq, V3.sub_x, V3.sub_y, V3.sub_z, V3.smul_x, V3.smul_y, V3.smul_z]; ring
  rw [this, hn]; ring

/-- Below 1e-12 the first row is shorter than 1, so the result is not a rotation. -/
theorem rot6d_small {a1 a2 : V3 ℝ} (h1 : norm a1 < 1 / 10 ^ 12) : ¬ IsRot (rot6dToMat a1 a2) := by
  intro h
  have hr := h.eqs.r00
  have hs : V3.normSq (normalize a1) = 1 := by
    simp only [V3.normSq, V3.dot]; exact hr
  unfold normalize at hs
  rw [max_eq_right h1.le, V3.normSq_smul, ← norm_mul_self] at hs
  have h0 := norm_nonneg' a1
  have : (1 / 10 ^ 12 : ℝ)⁻¹ ^ 2 * (norm a1 * norm a1) = ((10:ℝ) ^ 12 * norm a1) ^ 2 := by
    rw [one_div, inv_inv]; ring
  rw [this] at hs
  have hlt : (10:ℝ) ^ 12 * norm a1 < 1 := by
    have : (0:ℝ) < 10 ^ 12 := by norm_num
    calc (10:ℝ) ^ 12 * norm a1 < 10 ^ 12 * (1 / 10 ^ 12) := by
          exact mul_lt_mul_of_pos_left h1 this
      _ = 1 := by norm_num
  have hge : 0 ≤ (10:ℝ) ^ 12 * norm a1 := by positivity
  nlinarith

/-- **C22 (round trip).** `rotation_6d_to_matrix(matrix_to_rotation_6d(R)) = R` for every rotation. -/
theorem rot6d_roundtrip {m : M3 ℝ} (h : IsRot m) :
    rot6dToMat (matToRot6d m).1 (matToRot6d m).2 = m := by
  obtain ⟨r00, r11, r22, r01, r02, r12, c00, c11, c22, c01, c02, c12, a00, a01, a02, a10, a11, a12,
    a20, a21, a22⟩ := h.eqs
  have n0 : norm m.row0 = 1 := by
    unfold norm
    rw [show V3.normSq m.row0 = 1 by simpa only [V3.normSq, V3.dot, row0] using r00, Real.sqrt_one]
  have n1 : norm m.row1 = 1 := by
    unfold norm
    rw [show V3.normSq m.row1 = 1 by simpa only [V3.normSq, V3.dot, row1] using r11, Real.sqrt_one]
  have nz : ∀ v : V3 ℝ, norm v = 1 → normalize v = v := by
    intro v hv
    unfold normalize
    rw [hv, max_eq_left (by norm_num), inv_one, one_smul]
  have hd : V3.dot m.row0 m.row1 = 0 := by simpa only [V3.dot, row0, row1] using r01
  unfold rot6dToMat matToRot6d
  simp only
  rw [nz _ n0, hd, zero_smul, sub_zero, nz _ n1]
  ext <;> simp only [ofRows, row0, row1, V3.cross] <;> linarith

/-- Positive multiples give the same rotation; the second vector may be shifted along the first. -/
theorem rot6d_invariant {a1 a2 : V3 ℝ} (h1 : 1 / 10 ^ 12 ≤ norm a1) (t : ℝ) :
    rot6dToMat a1 (a2 + t • a1) = rot6dToMat a1 a2 := by
  have h0 : norm a1 ≠ 0 := by
    have : (0 : ℝ) < 1 / 10 ^ 12 := by norm_num
    linarith
  have hn := norm_normalize h1
  have ha : a1 = norm a1 • normalize a1 := by
    unfold normalize
    rw [max_eq_left h1, smul_smul, mul_inv_cancel₀ h0, one_smul]
  unfold rot6dToMat
  simp only
  have : a2 + t • a1 - V3.dot (normalize a1) (a2 + t • a1) • normalize a1
      = a2 - V3.dot (normalize a1) a2 • normalize a1 := by
    rw [V3.dot_add, V3.dot_smul]
    have hd : V3.dot (normalize a1) a1 = norm a1 := by
      conv_lhs => rw [ha]
      rw [V3.dot_smul]
      have : normalize (norm a1 • normalize a1) = normalize a1 := by rw [← ha]
      rw [this]
      show norm a1 * V3.normSq (normalize a1) = _
      rw [hn, mul_one]
    rw [hd]
    conv_lhs => rw [show t • a1 = (t * norm a1) • normalize a1 by rw [mul_smul, ← ha]]
    rw [add_smul]
    abel
  rw [this]

/-! ### Examples -/

example : axisAngleToMat ⟨0, 0, Real.pi / 2⟩ = ⟨0, -1, 0, 1, 0, 0, 0, 0, 1⟩ := by
  rw [← axisAngleToMatFast_eq]
  have hn : norm ⟨0, 0, Real.pi / 2⟩ = Real.pi / 2 := by
    simp only [norm, V3.normSq, V3.dot, mul_zero, zero_add]
    exact Real.sqrt_mul_self (by have := Real.pi_pos; linarith)
  have h0 : Real.pi / 2 * (Real.pi / 2) ≠ 0 := by have := Real.pi_pos; positivity
  have hs : sinc (Real.pi / 2) * (Real.pi / 2) = 1 := by
    rw [mul_comm, mul_sinc, Real.sin_pi_div_two]
  simp only [axisAngleToMatFast, hn, if_neg h0, Real.cos_pi_div_two, sub_zero]
  have hq : 1 / (Real.pi / 2 * (Real.pi / 2)) * (Real.pi / 2 * (Real.pi / 2)) = 1 := by
    field_simp
  generalize 1 / (Real.pi / 2 * (Real.pi / 2)) = t at hq
  ext <;> simp only [add_def, smul_def, mul_def, skew, one_def] <;> linarith

example : matToAxisAngle (axisAngleToMat ⟨1, 1, 1⟩) = ⟨1, 1, 1⟩ :=
  matToAxisAngle_axisAngleToMat (by
    have : norm (⟨1, 1, 1⟩ : V3 ℝ) ≤ 3 := by
      unfold norm
      rw [Real.sqrt_le_left (by norm_num)]
      simp [V3.normSq, V3.dot]; norm_num
    have := Real.pi_gt_three
    linarith)

example : IsRot (rot6dToMat ⟨2, 0, 0⟩ ⟨5, 3, 0⟩) := by
  have hn : norm (⟨2, 0, 0⟩ : V3 ℝ) = 2 := by
    simp only [norm, V3.normSq, V3.dot, mul_zero, add_zero]
    exact Real.sqrt_mul_self (by norm_num)
  have hb : normalize (⟨2, 0, 0⟩ : V3 ℝ) = ⟨1, 0, 0⟩ := by
    unfold normalize
    rw [hn, max_eq_left (by norm_num)]
    ext <;> simp
  apply rot6d_rot
  · rw [hn]; norm_num
  · rw [hb]
    have : (⟨5, 3, 0⟩ : V3 ℝ) - V3.dot (⟨1, 0, 0⟩ : V3 ℝ) ⟨5, 3, 0⟩ • (⟨1, 0, 0⟩ : V3 ℝ) = ⟨0, 3, 0⟩ := by
      ext <;> simp [V3.dot]
    rw [this]
    have : norm (⟨0, 3, 0⟩ : V3 ℝ) = 3 := by
      simp only [norm, V3.normSq, V3.dot, mul_zero, add_zero, zero_add]
      exact Real.sqrt_mul_self (by norm_num)
    rw [this]; norm_num

end P3D.Rot
