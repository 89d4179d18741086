/-
C28: `look_at_rotation`, `look_at_view_transform`, `camera_position_from_spherical_angles`.
-/
import Verif.Cameras
import Verif.AxisAngleProps
import Mathlib.Tactic.FieldSimp
import Mathlib.Tactic.Positivity

set_option linter.unusedSimpArgs false

namespace P3D.Camera
open Rot M3

/-! ### Vectors -/

theorem normSq_cross (a b : V3 ℝ) :
    V3.normSq (V3.cross a b) = V3.normSq a * V3.normSq b - V3.dot a b ^ 2 := by
  simp only [V3.normSq, V3.dot, V3.cross]; ring

theorem norm_one_iff {v : V3 ℝ} : Rot.norm v = 1 ↔ V3.normSq v = 1 := by
  have h := norm_mul_self v
  have h0 := norm_nonneg' v
  constructor
  · intro h1; rw [← h, h1]; ring
  · intro h1
    rw [h1] at h
    nlinarith

theorem norm_normalize5 (v : V3 ℝ) : Rot.norm (normalize5 v) = Rot.norm v / max (Rot.norm v) (1 / 10 ^ 5) := by
  unfold normalize5
  have : 0 < max (Rot.norm v) (1 / 10 ^ 5) := lt_max_of_lt_right (by norm_num)
  rw [norm_smul', abs_of_pos (inv_pos.mpr this), div_eq_mul_inv _ (max _ _), mul_comm]

theorem norm_normalize5_big {v : V3 ℝ} (h : 1 / 10 ^ 5 ≤ Rot.norm v) : Rot.norm (normalize5 v) = 1 := by
  rw [norm_normalize5, max_eq_left h]
  exact div_self (lt_of_lt_of_le (by norm_num) h).ne'

theorem norm_normalize5_small {v : V3 ℝ} (h : Rot.norm v < 1 / 10 ^ 5) : Rot.norm (normalize5 v) < 1 := by
  rw [norm_normalize5, max_eq_right h.le, div_lt_one (by norm_num)]
  exact h

theorem normalize5_unit {v : V3 ℝ} (h : Rot.norm v = 1) : normalize5 v = v := by
  unfold normalize5
  rw [h, max_eq_left (by norm_num)]
  ext <;> simp

theorem normalize5_dot {v w : V3 ℝ} (h : V3.dot v w = 0) : V3.dot (normalize5 v) w = 0 := by
  unfold normalize5
  generalize (max (Rot.norm v) (1 / 10 ^ 5))⁻¹ = s
  simp only [V3.dot, V3.smul_x, V3.smul_y, V3.smul_z] at *
  linear_combination s * h

theorem dot_comm' (a b : V3 ℝ) : V3.dot a b = V3.dot b a := by simp only [V3.dot]; ring

theorem axisX0_dot_z (p a u : V3 ℝ) : V3.dot (axisX0 p a u) (axisZ p a) = 0 := by
  unfold axisX0
  apply normalize5_dot
  simp only [V3.dot, V3.cross]; ring

theorem axisY_dot_z (p a u : V3 ℝ) : V3.dot (axisY p a u) (axisZ p a) = 0 := by
  unfold axisY
  apply normalize5_dot
  simp only [V3.dot, V3.cross]; ring

theorem axisX_dot_z (p a u : V3 ℝ) : V3.dot (axisX p a u) (axisZ p a) = 0 := by
  unfold axisX
  split_ifs
  · apply normalize5_dot
    simp only [V3.dot, V3.cross]; ring
  · exact axisX0_dot_z p a u

/-- `‖z × x‖ = ‖x‖` for a unit `z` perpendicular to `x`. -/
theorem norm_cross_unit {z x : V3 ℝ} (hz : Rot.norm z = 1) (hx : V3.dot z x = 0) :
    Rot.norm (V3.cross z x) = Rot.norm x := by
  unfold Rot.norm
  rw [normSq_cross, norm_one_iff.mp hz, hx]
  congr 1; ring

theorem cross_cross_unit {z x : V3 ℝ} (hz : V3.normSq z = 1) (hx : V3.dot z x = 0) :
    V3.cross (V3.cross z x) z = x := by
  simp only [V3.normSq, V3.dot] at hz hx
  ext <;> simp only [V3.cross] <;> grind

theorem closeToZero_norm {v : V3 ℝ} (h : closeToZero v) : Rot.norm v ≠ 1 := by
  intro h1
  have h2 := norm_one_iff.mp h1
  obtain ⟨a, b, c⟩ := h
  simp only [V3.normSq, V3.dot] at h2
  have := abs_le.mp a
  have := abs_le.mp b
  have := abs_le.mp c
  nlinarith

/-! ### When the result is a rotation -/

/-- The cross product of `up` with the viewing direction. -/
noncomputable def side (p a u : V3 ℝ) : V3 ℝ := V3.cross u (axisZ p a)

theorem rot_rows {x y z : V3 ℝ} (h : IsRot (M3.ofRows x y z).transpose) :
    Rot.norm x = 1 ∧ Rot.norm y = 1 ∧ Rot.norm z = 1 := by
  have h1 : (M3.ofRows x y z) * (M3.ofRows x y z).transpose = 1 := by
    have := h.transpose.1
    rwa [M3.transpose_transpose] at this
  simp only [M3.ofRows, M3.transpose, M3.mul_def, M3.one_def, M3.mk.injEq] at h1
  refine ⟨norm_one_iff.mpr ?_, norm_one_iff.mpr ?_, norm_one_iff.mpr ?_⟩ <;> simp only [V3.normSq, V3.dot]
  · exact h1.1
  · exact h1.2.2.2.2.1
  · exact h1.2.2.2.2.2.2.2.2

theorem rot_of_frame {x z : V3 ℝ} (hx : Rot.norm x = 1) (hz : Rot.norm z = 1) (hxz : V3.dot x z = 0) :
    IsRot (M3.ofRows x (V3.cross z x) z).transpose := by
  apply IsRot.transpose
  have hx' := norm_one_iff.mp hx
  have hz' := norm_one_iff.mp hz
  have hy : V3.normSq (V3.cross z x) = 1 := by
    rw [normSq_cross, hx', hz', dot_comm', hxz]; ring
  have hxy : V3.dot x (V3.cross z x) = 0 := by simp only [V3.dot, V3.cross]; ring
  have h := ofRows_rot hx' hy hxy
  have : V3.cross x (V3.cross z x) = z := by
    simp only [V3.normSq, V3.dot] at hx' hxz
    ext <;> simp only [V3.cross] <;> grind
  rwa [this] at h

/-- **C28 (exact domain).** `look_at_rotation` returns a rotation exactly when the camera is at least 1e-5 away
from the target and `up × z` is at least 1e-5 long, or is so short that the replacement of the x axis is
used (all components at most 5e-8) but still at least 1e-10 long. -/
theorem lookAt_rot_iff (p a u : V3 ℝ) : IsRot (lookAtRotation p a u) ↔
    1 / 10 ^ 5 ≤ Rot.norm (a - p) ∧ (1 / 10 ^ 5 ≤ Rot.norm (side p a u) ∨
      (1 / 10 ^ 10 ≤ Rot.norm (side p a u) ∧ |(side p a u).x| ≤ 5 / 10 ^ 8 ∧ |(side p a u).y| ≤ 5 / 10 ^ 8
        ∧ |(side p a u).z| ≤ 5 / 10 ^ 8)) := by
  unfold lookAtRotation
  by_cases hd : 1 / 10 ^ 5 ≤ Rot.norm (a - p)
  swap
  · constructor
    · intro h
      exfalso
      have := (rot_rows h).2.2
      unfold axisZ at this
      exact absurd this (norm_normalize5_small (not_le.mp hd)).ne
    · exact fun h => absurd h.1 hd
  have hz : Rot.norm (axisZ p a) = 1 := norm_normalize5_big hd
  have hxz := axisX0_dot_z p a u
  have hzx : V3.dot (axisZ p a) (axisX0 p a u) = 0 := by rw [dot_comm']; exact hxz
  have hcr := norm_cross_unit hz hzx
  by_cases hs : 1 / 10 ^ 5 ≤ Rot.norm (side p a u)
  · have hx : Rot.norm (axisX0 p a u) = 1 := norm_normalize5_big hs
    have hX : axisX p a u = axisX0 p a u := if_neg (fun h => closeToZero_norm h hx)
    have hY : axisY p a u = V3.cross (axisZ p a) (axisX0 p a u) := normalize5_unit (by rw [hcr, hx])
    rw [hX, hY]
    exact ⟨fun _ => ⟨hd, Or.inl hs⟩, fun _ => rot_of_frame hx hz hxz⟩
  · have hs' := not_le.mp hs
    have hx0 : axisX0 p a u = (10 ^ 5 : ℝ) • side p a u := by
      unfold axisX0 normalize5
      rw [show V3.cross u (axisZ p a) = side p a u from rfl, max_eq_right hs'.le]
      congr 1; norm_num
    have hn0 : Rot.norm (axisX0 p a u) = 10 ^ 5 * Rot.norm (side p a u) := by
      rw [hx0, norm_smul', abs_of_pos (by norm_num)]
    have hlt : Rot.norm (axisX0 p a u) < 1 := by rw [hn0]; linarith
    have hclose : closeToZero (axisX0 p a u) ↔ |(side p a u).x| ≤ 5 / 10 ^ 8 ∧ |(side p a u).y| ≤ 5 / 10 ^ 8
        ∧ |(side p a u).z| ≤ 5 / 10 ^ 8 := by
      unfold closeToZero
      rw [hx0]
      simp only [V3.smul_x, V3.smul_y, V3.smul_z, abs_mul]
      rw [abs_of_pos (show (0 : ℝ) < 10 ^ 5 by norm_num)]
      constructor
      · rintro ⟨h1, h2, h3⟩; refine ⟨?_, ?_, ?_⟩ <;> linarith
      · rintro ⟨h1, h2, h3⟩; refine ⟨?_, ?_, ?_⟩ <;> linarith
    by_cases ht : 1 / 10 ^ 10 ≤ Rot.norm (side p a u)
    · have hge : 1 / 10 ^ 5 ≤ Rot.norm (axisX0 p a u) := by rw [hn0]; linarith
      by_cases hc : closeToZero (axisX0 p a u)
      · refine ⟨fun _ => ⟨hd, Or.inr ⟨ht, hclose.mp hc⟩⟩, fun _ => ?_⟩
        have hpos : 0 < Rot.norm (axisX0 p a u) := lt_of_lt_of_le (by norm_num) hge
        have hY : axisY p a u = (Rot.norm (axisX0 p a u))⁻¹ • V3.cross (axisZ p a) (axisX0 p a u) := by
          unfold axisY
          conv_lhs => unfold normalize5
          rw [hcr, max_eq_left hge]
        have hyz : V3.cross (axisY p a u) (axisZ p a) = (Rot.norm (axisX0 p a u))⁻¹ • axisX0 p a u := by
          rw [hY]
          generalize (Rot.norm (axisX0 p a u))⁻¹ = s
          conv_rhs => rw [← cross_cross_unit (norm_one_iff.mp hz) hzx]
          ext <;> simp only [V3.cross, V3.smul_x, V3.smul_y, V3.smul_z] <;> ring
        have hxu : Rot.norm ((Rot.norm (axisX0 p a u))⁻¹ • axisX0 p a u) = 1 := by
          rw [norm_smul', abs_of_pos (inv_pos.mpr hpos)]
          exact inv_mul_cancel₀ hpos.ne'
        have hX : axisX p a u = (Rot.norm (axisX0 p a u))⁻¹ • axisX0 p a u := by
          unfold axisX
          rw [if_pos hc, hyz, normalize5_unit hxu]
        have hY' : axisY p a u = V3.cross (axisZ p a) (axisX p a u) := by
          rw [hY, hX]
          ext <;> simp only [V3.cross, V3.smul_x, V3.smul_y, V3.smul_z] <;> ring
        rw [hY']
        exact rot_of_frame (by rw [hX]; exact hxu) hz (axisX_dot_z p a u)
      · refine ⟨fun h => ?_, fun h => ?_⟩
        · exfalso
          have := (rot_rows h).1
          unfold axisX at this
          rw [if_neg hc] at this
          exact hlt.ne this
        · rcases h.2 with h | h
          · exact absurd h hs
          · exact absurd (hclose.mpr h.2) hc
    · refine ⟨fun h => ?_, fun h => ?_⟩
      · exfalso
        have := (rot_rows h).2.1
        unfold axisY at this
        have hlt2 : Rot.norm (V3.cross (axisZ p a) (axisX0 p a u)) < 1 / 10 ^ 5 := by
          rw [hcr, hn0]; linarith [not_le.mp ht]
        exact (norm_normalize5_small hlt2).ne this
      · rcases h.2 with h | h
        · exact absurd h hs
        · exact absurd h.1 ht

/-- **C28 (up parallel to the viewing direction).** Then the result is not a rotation: two of its columns
are zero. -/
theorem lookAt_parallel {p a u : V3 ℝ} (h : V3.cross u (a - p) = 0) :
    axisX p a u = 0 ∧ axisY p a u = 0 ∧ (lookAtRotation p a u).det = 0 := by
  have hs : side p a u = 0 := by
    unfold side axisZ normalize5
    generalize (max (Rot.norm (a - p)) (1 / 10 ^ 5))⁻¹ = s
    have h1 := congrArg V3.x h
    have h2 := congrArg V3.y h
    have h3 := congrArg V3.z h
    simp only [V3.cross, V3.zero_x, V3.zero_y, V3.zero_z] at h1 h2 h3
    ext <;> simp only [V3.cross, V3.smul_x, V3.smul_y, V3.smul_z, V3.zero_x, V3.zero_y, V3.zero_z]
    · linear_combination s * h1
    · linear_combination s * h2
    · linear_combination s * h3
  have n0 : normalize5 0 = 0 := by unfold normalize5; ext <;> simp
  have c0 : ∀ v : V3 ℝ, V3.cross v 0 = 0 := by intro v; ext <;> simp [V3.cross]
  have c0' : ∀ v : V3 ℝ, V3.cross 0 v = 0 := by intro v; ext <;> simp [V3.cross]
  have hx0 : axisX0 p a u = 0 := by
    unfold axisX0
    rw [show V3.cross u (axisZ p a) = side p a u from rfl, hs, n0]
  have hy : axisY p a u = 0 := by unfold axisY; rw [hx0, c0, n0]
  have hx : axisX p a u = 0 := by
    unfold axisX
    split_ifs
    · rw [hy, c0', n0]
    · exact hx0
  refine ⟨hx, hy, ?_⟩
  unfold lookAtRotation
  rw [hx, hy]
  simp [M3.det, M3.ofRows, M3.transpose]

/-! ### The view transform -/

/-- **C28.** The eye is mapped to the origin, in every case. -/
theorem lookAt_eye (e a u : V3 ℝ) : M3.vecMul e (lookAtEye e a u).1 + (lookAtEye e a u).2 = 0 := by
  unfold lookAtEye
  generalize lookAtRotation e a u = r
  ext <;> simp only [M3.vecMul, M3.mulVec, M3.transpose, V3.add_x, V3.add_y, V3.add_z, V3.neg_x, V3.neg_y,
    V3.neg_z, V3.zero_x, V3.zero_y, V3.zero_z] <;> ring

/-- The view coordinates of a point are its scalar products with the axes. -/
theorem lookAt_apply (e a u q : V3 ℝ) : M3.vecMul q (lookAtEye e a u).1 + (lookAtEye e a u).2
    = ⟨V3.dot (q - e) (axisX e a u), V3.dot (q - e) (axisY e a u), V3.dot (q - e) (axisZ e a)⟩ := by
  unfold lookAtEye lookAtRotation
  generalize axisX e a u = x
  generalize axisY e a u = y
  generalize axisZ e a = z
  ext <;> simp only [M3.vecMul, M3.mulVec, M3.transpose, M3.ofRows, V3.dot, V3.add_x, V3.add_y, V3.add_z,
    V3.sub_x, V3.sub_y, V3.sub_z, V3.neg_x, V3.neg_y, V3.neg_z] <;> ring

theorem dot_axisZ (e a : V3 ℝ) : V3.dot (a - e) (axisZ e a)
    = Rot.norm (a - e) ^ 2 / max (Rot.norm (a - e)) (1 / 10 ^ 5) := by
  unfold axisZ normalize5
  rw [sq, norm_mul_self, div_eq_inv_mul]
  generalize (max (Rot.norm (a - e)) (1 / 10 ^ 5))⁻¹ = s
  simp only [V3.dot, V3.normSq, V3.smul_x, V3.smul_y, V3.smul_z]; ring

theorem parallel_dot {d x : V3 ℝ} (s : ℝ) (hs : s ≠ 0) (h : V3.dot x (s • d) = 0) : V3.dot d x = 0 := by
  have : s * V3.dot d x = 0 := by
    simp only [V3.dot, V3.smul_x, V3.smul_y, V3.smul_z] at *; linarith
  exact (mul_eq_zero.mp this).resolve_left hs

/-- **C28.** The target is mapped to the positive z axis, at its distance from the eye (if that is at least
1e-5); this holds for every `up`, also a parallel one. -/
theorem lookAt_target {e a u : V3 ℝ} (h : 1 / 10 ^ 5 ≤ Rot.norm (a - e)) :
    M3.vecMul a (lookAtEye e a u).1 + (lookAtEye e a u).2 = ⟨0, 0, Rot.norm (a - e)⟩ := by
  rw [lookAt_apply, dot_axisZ, max_eq_left h]
  have hpos : 0 < Rot.norm (a - e) := lt_of_lt_of_le (by norm_num) h
  have hm : (max (Rot.norm (a - e)) (1 / 10 ^ 5))⁻¹ ≠ 0 := by
    rw [max_eq_left h]; exact inv_ne_zero hpos.ne'
  have hx := axisX_dot_z e a u
  have hy := axisY_dot_z e a u
  unfold axisZ at hx hy
  conv at hx => rw [normalize5]
  conv at hy => rw [normalize5]
  rw [parallel_dot _ hm hx, parallel_dot _ hm hy]
  ext <;> simp only
  field_simp

/-- **C28 (no roll).** The `up` direction has view x coordinate 0 and a non-negative view y coordinate. -/
theorem lookAt_up (e a u : V3 ℝ) : V3.dot u (axisX e a u) = 0 ∧ 0 ≤ V3.dot u (axisY e a u) := by
  have key : ∀ v : V3 ℝ, ∃ s : ℝ, 0 ≤ s ∧ normalize5 v = s • v := by
    intro v
    refine ⟨_, ?_, rfl⟩
    exact inv_nonneg.mpr (le_trans (by norm_num) (le_max_right _ _))
  obtain ⟨s1, h1, e1⟩ := key (V3.cross u (axisZ e a))
  obtain ⟨s2, h2, e2⟩ := key (V3.cross (axisZ e a) (axisX0 e a u))
  obtain ⟨s3, h3, e3⟩ := key (V3.cross (axisY e a u) (axisZ e a))
  have hx0 : axisX0 e a u = s1 • V3.cross u (axisZ e a) := e1
  have hy : axisY e a u = s2 • V3.cross (axisZ e a) (s1 • V3.cross u (axisZ e a)) := by
    rw [← hx0]; exact e2
  generalize hz : axisZ e a = z at *
  have hx : axisX e a u = s3 • V3.cross (axisY e a u) z ∨ axisX e a u = axisX0 e a u := by
    unfold axisX
    split_ifs
    · left; rw [hz, e3]
    · right; rfl
  constructor
  · rcases hx with hx | hx <;> rw [hx]
    · rw [hy]; simp only [V3.dot, V3.cross, V3.smul_x, V3.smul_y, V3.smul_z]; ring
    · rw [hx0]; simp only [V3.dot, V3.cross, V3.smul_x, V3.smul_y, V3.smul_z]; ring
  · rw [hy]
    have : V3.dot u (s2 • V3.cross z (s1 • V3.cross u z)) = s2 * s1 * V3.normSq (V3.cross u z) := by
      simp only [V3.dot, V3.normSq, V3.cross, V3.smul_x, V3.smul_y, V3.smul_z]; ring
    rw [this]
    exact mul_nonneg (mul_nonneg h2 h1) (normSq_nonneg' _)

/-! ### Spherical coordinates -/

/-- **C28.** The camera position has distance `|dist|` from the origin, height `dist · sin(elev)`, and azimuth
measured from the z axis towards x. -/
theorem sphericalPos_spec (dist elev azim : ℝ) : Rot.norm (sphericalPos dist elev azim false) = |dist|
    ∧ (sphericalPos dist elev azim false).y = dist * Real.sin elev
    ∧ (sphericalPos dist elev azim false).x * Real.cos azim = (sphericalPos dist elev azim false).z * Real.sin azim
    ∧ sphericalPos dist elev azim true = sphericalPos dist (Real.pi / 180 * elev) (Real.pi / 180 * azim) false := by
  refine ⟨?_, ?_, ?_, ?_⟩
  · unfold Rot.norm sphericalPos
    rw [← Real.sqrt_sq_eq_abs]
    congr 1
    simp only [V3.normSq, V3.dot]
    have h1 := Real.sin_sq_add_cos_sq elev
    have h2 := Real.sin_sq_add_cos_sq azim
    simp only [Bool.false_eq_true, if_false]
    linear_combination dist ^ 2 * Real.cos elev ^ 2 * h2 + dist ^ 2 * h1
  · simp [sphericalPos]
  · simp [sphericalPos]; ring
  · simp [sphericalPos]

/-- **C28.** `look_at_view_transform(dist, elev, azim)` sees the target at `(0, 0, |dist|)`. -/
theorem lookAtSpherical_target {dist elev azim : ℝ} {degrees : Bool} {a u : V3 ℝ} (h : 1 / 10 ^ 5 ≤ |dist|) :
    M3.vecMul a (lookAtSpherical dist elev azim degrees a u).1 + (lookAtSpherical dist elev azim degrees a u).2
      = ⟨0, 0, |dist|⟩ := by
  have hn : Rot.norm (a - (sphericalPos dist elev azim degrees + a)) = |dist| := by
    have : a - (sphericalPos dist elev azim degrees + a) = (-1 : ℝ) • sphericalPos dist elev azim degrees := by
      ext <;> simp
    rw [this, norm_smul']
    cases degrees
    · rw [(sphericalPos_spec dist elev azim).1]; simp
    · rw [(sphericalPos_spec dist elev azim).2.2.2, (sphericalPos_spec dist _ _).1]; simp
  unfold lookAtSpherical
  rw [lookAt_target (by rw [hn]; exact h), hn]

/-- **C28 (defect).** Seen from straight above (`elev = 90`) with the default `up`, the result is not a
rotation. -/
theorem lookAtSpherical_above (dist azim : ℝ) (a : V3 ℝ) :
    ¬ IsRot (lookAtSpherical dist 90 azim true a ⟨0, 1, 0⟩).1 := by
  intro h
  have h90 : Real.pi / 180 * 90 = Real.pi / 2 := by ring
  have := (lookAt_parallel (p := sphericalPos dist 90 azim true + a) (a := a) (u := ⟨0, 1, 0⟩) (by
    ext <;> simp [V3.cross, sphericalPos, h90])).2.2
  have h1 := h.2
  unfold lookAtSpherical lookAtEye at h1
  simp only at h1
  rw [this] at h1
  exact zero_ne_one h1

/-! ### Examples -/

theorem exNorm : Rot.norm ((⟨0, 0, 0⟩ : V3 ℝ) - ⟨3, 0, 4⟩) = 5 := by
  unfold Rot.norm
  rw [show V3.normSq ((⟨0, 0, 0⟩ : V3 ℝ) - ⟨3, 0, 4⟩) = 5 ^ 2 by simp [V3.normSq, V3.dot]; norm_num]
  exact Real.sqrt_sq (by norm_num)

theorem exZ : axisZ ⟨3, 0, 4⟩ (⟨0, 0, 0⟩ : V3 ℝ) = ⟨-3 / 5, 0, -4 / 5⟩ := by
  unfold axisZ normalize5
  rw [exNorm, max_eq_left (by norm_num)]
  ext <;> simp <;> norm_num

/-- A camera at (3, 0, 4) looking at the origin with a tilted `up` gets a rotation. -/
example : IsRot (lookAtRotation ⟨3, 0, 4⟩ ⟨0, 0, 0⟩ ⟨1, 5, 0⟩) := by
  rw [lookAt_rot_iff, exNorm]
  refine ⟨by norm_num, Or.inl ?_⟩
  have h : V3.normSq (side ⟨3, 0, 4⟩ (⟨0, 0, 0⟩ : V3 ℝ) ⟨1, 5, 0⟩) = 641 / 25 := by
    unfold side; rw [exZ]; simp [V3.normSq, V3.dot, V3.cross]; norm_num
  have h2 := norm_mul_self (side ⟨3, 0, 4⟩ (⟨0, 0, 0⟩ : V3 ℝ) ⟨1, 5, 0⟩)
  have h3 := norm_nonneg' (side ⟨3, 0, 4⟩ (⟨0, 0, 0⟩ : V3 ℝ) ⟨1, 5, 0⟩)
  rw [h] at h2
  by_contra hc
  nlinarith [not_le.mp hc]

/-- It sees the origin at depth 5. -/
example : M3.vecMul ⟨0, 0, 0⟩ (lookAtEye ⟨3, 0, 4⟩ ⟨0, 0, 0⟩ ⟨1, 5, 0⟩).1
    + (lookAtEye ⟨3, 0, 4⟩ ⟨0, 0, 0⟩ ⟨1, 5, 0⟩).2 = ⟨0, 0, 5⟩ := by
  rw [lookAt_target (by rw [exNorm]; norm_num), exNorm]

/-- Looking along `up`: not a rotation, but the target is still on the axis. -/
example : ¬ IsRot (lookAtSpherical 2 90 30 true ⟨1, 2, 3⟩ ⟨0, 1, 0⟩).1
    ∧ M3.vecMul ⟨1, 2, 3⟩ (lookAtSpherical 2 90 30 true ⟨1, 2, 3⟩ ⟨0, 1, 0⟩).1
      + (lookAtSpherical 2 90 30 true ⟨1, 2, 3⟩ ⟨0, 1, 0⟩).2 = ⟨0, 0, 2⟩ := by
  refine ⟨lookAtSpherical_above 2 30 _, ?_⟩
  rw [lookAtSpherical_target (by rw [abs_of_pos] <;> norm_num), abs_of_pos (by norm_num)]

end P3D.Camera
