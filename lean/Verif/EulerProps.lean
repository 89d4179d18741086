/-
C21 (first part): Euler angles.
-/
import Verif.Rotations
import Mathlib.Tactic.Linarith
import Mathlib.Analysis.Real.Pi.Bounds
import Mathlib.Tactic.FieldSimp
import Mathlib.Tactic.FinCases

set_option linter.unusedSectionVars false

namespace P3D.Rot
open M3

/-- A usable convention: the middle axis differs from the two others. -/
def Valid (cv : Axis × Axis × Axis) : Prop := cv.2.1 ≠ cv.1 ∧ cv.2.1 ≠ cv.2.2

theorem axisRot_rot (a : Axis) (t : ℝ) : IsRot (axisRot a t) := by
  have h := Real.cos_sq_add_sin_sq t
  cases a <;> constructor <;>
    simp only [axisRot, mul_def, transpose, one_def, M3.mk.injEq, M3.det] <;> grind

/-- **C21.** Euler matrices are rotations, for every convention and all angles. -/
theorem eulerToMat_rot (cv : Axis × Axis × Axis) (e : V3 ℝ) : IsRot (eulerToMat cv e) :=
  ((axisRot_rot _ _).mul (axisRot_rot _ _)).mul (axisRot_rot _ _)

theorem atan2_norm (y x : ℝ) : Real.sqrt (x * x + y * y) * Real.cos (atan2 y x) = x
    ∧ Real.sqrt (x * x + y * y) * Real.sin (atan2 y x) = y := by
  have h : ‖(⟨x, y⟩ : ℂ)‖ = Real.sqrt (x * x + y * y) := by
    rw [Complex.norm_def, Complex.normSq_mk]
  constructor
  · have := Complex.norm_mul_cos_arg ⟨x, y⟩
    rw [h] at this; exact this
  · have := Complex.norm_mul_sin_arg ⟨x, y⟩
    rw [h] at this; exact this

/-- Cosine and sine of `atan2` when the length of the vector is known. -/
theorem atan2_of_sq {y x c : ℝ} (hc : 0 < c) (h : x * x + y * y = c * c) :
    c * Real.cos (atan2 y x) = x ∧ c * Real.sin (atan2 y x) = y := by
  have := atan2_norm y x
  rw [h, Real.sqrt_mul_self hc.le] at this
  exact this

theorem atan2_mul {k θ : ℝ} (hk : 0 < k) (h1 : -Real.pi < θ) (h2 : θ ≤ Real.pi) :
    atan2 (k * Real.sin θ) (k * Real.cos θ) = θ := by
  have := Complex.arg_mul_cos_add_sin_mul_I hk (θ := θ) ⟨h1, h2⟩
  rw [atan2]
  convert this using 2
  apply Complex.ext <;> simp [← Complex.ofReal_cos, ← Complex.ofReal_sin]

theorem clamp1_eq {x : ℝ} (h : x * x ≤ 1) : clamp1 x = x := by
  have h1 : -1 ≤ x := by nlinarith
  have h2 : x ≤ 1 := by nlinarith
  simp [clamp1, h1, h2]

/-- Sine and cosine of the central angle, Tait-Bryan conventions. -/
theorem arcsin_cs {x : ℝ} (h : x * x < 1) : Real.sin (Real.arcsin x) = x ∧
    0 < Real.cos (Real.arcsin x) ∧ Real.cos (Real.arcsin x) * Real.cos (Real.arcsin x) = 1 - x * x := by
  have h1 : -1 ≤ x := by nlinarith
  have h2 : x ≤ 1 := by nlinarith
  rw [Real.sin_arcsin h1 h2, Real.cos_arcsin]
  refine ⟨rfl, Real.sqrt_pos.mpr (by nlinarith), ?_⟩
  rw [Real.mul_self_sqrt (by nlinarith)]; ring

theorem arccos_cs {x : ℝ} (h : x * x < 1) : Real.cos (Real.arccos x) = x ∧
    0 < Real.sin (Real.arccos x) ∧ Real.sin (Real.arccos x) * Real.sin (Real.arccos x) = 1 - x * x := by
  have h1 : -1 ≤ x := by nlinarith
  have h2 : x ≤ 1 := by nlinarith
  rw [Real.cos_arccos h1 h2, Real.sin_arccos]
  refine ⟨rfl, Real.sqrt_pos.mpr (by nlinarith), ?_⟩
  rw [Real.mul_self_sqrt (by nlinarith)]; ring

theorem entry_le {m : M3 ℝ} (h : IsRot m) (i j : Fin 3) : entry m i j * entry m i j ≤ 1 := by
  obtain ⟨r00, r11, r22, -⟩ := h.eqs
  have q := fun x : ℝ => mul_self_nonneg x
  fin_cases i <;> fin_cases j <;> simp only [entry] <;>
    linarith [q m.m00, q m.m01, q m.m02, q m.m10, q m.m11, q m.m12, q m.m20, q m.m21, q m.m22]

/-- `axisRot` as a function of cosine and sine. -/
def rotCS : Axis → ℝ → ℝ → M3 ℝ
  | .X, c, s => ⟨1, 0, 0, 0, c, -s, 0, s, c⟩
  | .Y, c, s => ⟨c, 0, s, 0, 1, 0, -s, 0, c⟩
  | .Z, c, s => ⟨c, -s, 0, s, c, 0, 0, 0, 1⟩

theorem axisRot_eq (a : Axis) (t : ℝ) : axisRot a t = rotCS a (Real.cos t) (Real.sin t) := by
  cases a <;> rfl

theorem atan2_inv {c u x : ℝ} (hc : 0 < c) (h : c * u = x) : u = x * c⁻¹ := by
  rw [← h]; field_simp

theorem tait_case {a b g : Axis} {m : M3 ℝ} {y1 x1 s y3 x3 : ℝ} (hs : s * s < 1)
    (h1 : x1 * x1 + y1 * y1 = 1 - s * s) (h3 : x3 * x3 + y3 * y3 = 1 - s * s)
    (hfin : ∀ c d, c * d = 1 → c * c = 1 - s * s → d * d * (1 - s * s) = 1 →
      rotCS a (x1 * d) (y1 * d) * rotCS b c s * rotCS g (x3 * d) (y3 * d) = m) :
    axisRot a (atan2 y1 x1) * axisRot b (Real.arcsin s) * axisRot g (atan2 y3 x3) = m := by
  obtain ⟨e1, e2, e3⟩ := arcsin_cs hs
  have g1 := atan2_of_sq e2 (h1.trans e3.symm)
  have g3 := atan2_of_sq e2 (h3.trans e3.symm)
  have hd := mul_inv_cancel₀ e2.ne'
  have hdd : (Real.cos (Real.arcsin s))⁻¹ * (Real.cos (Real.arcsin s))⁻¹ * (1 - s * s) = 1 := by
    rw [← e3]; field_simp
  have := hfin _ _ hd e3 hdd
  rw [axisRot_eq, axisRot_eq, axisRot_eq, e1]
  rw [atan2_inv e2 g1.1, atan2_inv e2 g1.2, atan2_inv e2 g3.1, atan2_inv e2 g3.2]
  exact this

theorem proper_case {a b g : Axis} {m : M3 ℝ} {y1 x1 s y3 x3 : ℝ} (hs : s * s < 1)
    (h1 : x1 * x1 + y1 * y1 = 1 - s * s) (h3 : x3 * x3 + y3 * y3 = 1 - s * s)
    (hfin : ∀ c d, c * d = 1 → c * c = 1 - s * s → d * d * (1 - s * s) = 1 →
      rotCS a (x1 * d) (y1 * d) * rotCS b s c * rotCS g (x3 * d) (y3 * d) = m) :
    axisRot a (atan2 y1 x1) * axisRot b (Real.arccos s) * axisRot g (atan2 y3 x3) = m := by
  obtain ⟨e1, e2, e3⟩ := arccos_cs hs
  have g1 := atan2_of_sq e2 (h1.trans e3.symm)
  have g3 := atan2_of_sq e2 (h3.trans e3.symm)
  have hd := mul_inv_cancel₀ e2.ne'
  have hdd : (Real.sin (Real.arccos s))⁻¹ * (Real.sin (Real.arccos s))⁻¹ * (1 - s * s) = 1 := by
    rw [← e3]; field_simp
  have := hfin _ _ hd e3 hdd
  rw [axisRot_eq, axisRot_eq, axisRot_eq, e1]
  rw [atan2_inv e2 g1.1, atan2_inv e2 g1.2, atan2_inv e2 g3.1, atan2_inv e2 g3.2]
  exact this

set_option maxHeartbeats 4000000 in
/-- **C21 (matrix to Euler angles and back).** Away from gimbal lock, for all twelve conventions,
`euler_angles_to_matrix(matrix_to_euler_angles(R)) = R`. -/
theorem eulerToMat_matToEuler {cv : Axis × Axis × Axis} (hv : Valid cv) {m : M3 ℝ} (h : IsRot m)
    (hg : entry m cv.1.index cv.2.2.index * entry m cv.1.index cv.2.2.index ≠ 1) :
    eulerToMat cv (matToEuler cv m) = m := by
  have hlt : entry m cv.1.index cv.2.2.index * entry m cv.1.index cv.2.2.index < 1 :=
    lt_of_le_of_ne (entry_le h _ _) hg
  obtain ⟨r00, r11, r22, r01, r02, r12, c00, c11, c22, c01, c02, c12, a00, a01, a02, a10, a11, a12,
    a20, a21, a22⟩ := h.eqs
  obtain ⟨x, y, z⟩ := cv
  obtain ⟨h1, h2⟩ := hv
  cases x <;> cases y <;> first | exact absurd rfl h1 | skip
  all_goals cases z <;> first | exact absurd rfl h2 | skip
  all_goals
    simp only [Axis.index, entry] at hlt
    have hcl := clamp1_eq hlt.le
    simp only [eulerToMat, matToEuler, angleFromTan, tanIdx, even, Axis.index, entry, hcl]
    simp (decide := true) only [if_true, if_false, mul_one]
    first
    | refine tait_case (by linarith) (by linarith) (by linarith) fun c d e1 e2 e3 => ?_
    | refine proper_case (by linarith) (by linarith) (by linarith) fun c d e1 e2 e3 => ?_
    clear h hlt hcl h1 h2 hg r00 r11 r22 r01 r02 r12 c00 c11 c22 c01 c02 c12
    obtain ⟨m00, m01, m02, m10, m11, m12, m20, m21, m22⟩ := m
    simp only [rotCS, mul_def, M3.mk.injEq] at *
    refine ⟨?_, ?_, ?_, ?_, ?_, ?_, ?_, ?_, ?_⟩ <;> grind

/-- Principal range of the angles of a convention. -/
def Principal (cv : Axis × Axis × Axis) (e : V3 ℝ) : Prop :=
  (-Real.pi < e.x ∧ e.x ≤ Real.pi) ∧ (-Real.pi < e.z ∧ e.z ≤ Real.pi) ∧
    if cv.1 = cv.2.2 then 0 < e.y ∧ e.y < Real.pi else -(Real.pi / 2) < e.y ∧ e.y < Real.pi / 2

theorem atan2_eq {k θ x y : ℝ} (hk : 0 < k) (h : -Real.pi < θ ∧ θ ≤ Real.pi)
    (hy : y = k * Real.sin θ) (hx : x = k * Real.cos θ) : atan2 y x = θ := by
  rw [hy, hx, atan2_mul hk h.1 h.2]

theorem sin_sq_le (b : ℝ) : Real.sin b * Real.sin b ≤ 1 := by
  nlinarith [Real.sin_sq_add_cos_sq b, mul_self_nonneg (Real.cos b)]

theorem cos_sq_le (b : ℝ) : Real.cos b * Real.cos b ≤ 1 := by
  nlinarith [Real.sin_sq_add_cos_sq b, mul_self_nonneg (Real.sin b)]

theorem arcsin_pos {b x : ℝ} (h : -(Real.pi / 2) < b ∧ b < Real.pi / 2) (hx : x = Real.sin b) :
    Real.arcsin (clamp1 x * 1) = b := by
  rw [hx, clamp1_eq (sin_sq_le b), mul_one, Real.arcsin_sin h.1.le h.2.le]

theorem arcsin_neg' {b x : ℝ} (h : -(Real.pi / 2) < b ∧ b < Real.pi / 2) (hx : x = -Real.sin b) :
    Real.arcsin (clamp1 x * -1) = b := by
  rw [hx, clamp1_eq (by rw [neg_mul_neg]; exact sin_sq_le b), mul_neg, mul_one, neg_neg,
    Real.arcsin_sin h.1.le h.2.le]

theorem arccos_cos' {b x : ℝ} (h : 0 < b ∧ b < Real.pi) (hx : x = Real.cos b) :
    Real.arccos (clamp1 x) = b := by
  rw [hx, clamp1_eq (cos_sq_le b), Real.arccos_cos h.1.le h.2.le]

set_option maxHeartbeats 4000000 in
/-- **C21 (Euler angles to matrix and back).** For angles in the principal range,
`matrix_to_euler_angles(euler_angles_to_matrix(e)) = e`, for all twelve conventions. -/
theorem matToEuler_eulerToMat {cv : Axis × Axis × Axis} (hv : Valid cv) {e : V3 ℝ}
    (hp : Principal cv e) : matToEuler cv (eulerToMat cv e) = e := by
  obtain ⟨x, y, z⟩ := cv
  obtain ⟨h1, h2⟩ := hv
  obtain ⟨a, b, g⟩ := e
  obtain ⟨pa, pg, pb⟩ := hp
  simp only at pa pb pg h1 h2
  have kc : -(Real.pi / 2) < b ∧ b < Real.pi / 2 → 0 < Real.cos b := fun h =>
    Real.cos_pos_of_mem_Ioo h
  have ks : 0 < b ∧ b < Real.pi → 0 < Real.sin b := fun h => Real.sin_pos_of_pos_of_lt_pi h.1 h.2
  cases x <;> cases y <;> first | exact absurd rfl h1 | skip
  all_goals cases z <;> first | exact absurd rfl h2 | skip
  all_goals
    simp (decide := true) only [if_true, if_false] at pb
    simp only [matToEuler, angleFromTan, tanIdx, even, Axis.index]
    simp (decide := true) only [if_true, if_false]
    simp only [eulerToMat, entry, axisRot, mul_def, V3.mk.injEq]
    refine ⟨?_, ?_, ?_⟩
    · first
      | exact atan2_eq (kc pb) pa (by ring) (by ring)
      | exact atan2_eq (ks pb) pa (by ring) (by ring)
    · first
      | exact arcsin_pos pb (by ring)
      | exact arcsin_neg' pb (by ring)
      | exact arccos_cos' pb (by ring)
    · first
      | exact atan2_eq (kc pb) pg (by ring) (by ring)
      | exact atan2_eq (ks pb) pg (by ring) (by ring)

/-- **C21 (gimbal lock).** At gimbal lock the round trip fails: the XYZ angles of the rotation
`Rx(π/2) Ry(π/2)` lose the first angle. -/
theorem gimbal_lock :
    let m := eulerToMat (.X, .Y, .Z) ⟨Real.pi / 2, Real.pi / 2, 0⟩
    IsRot m ∧ matToEuler (.X, .Y, .Z) m = ⟨0, Real.pi / 2, 0⟩
      ∧ eulerToMat (.X, .Y, .Z) (matToEuler (.X, .Y, .Z) m) ≠ m := by
  intro m
  have hm : m = ⟨0, 0, 1, 1, 0, 0, 0, 1, 0⟩ := by
    simp [m, eulerToMat, axisRot, mul_def]
  have he : matToEuler (.X, .Y, .Z) m = ⟨0, Real.pi / 2, 0⟩ := by
    rw [hm]
    simp only [matToEuler, angleFromTan, tanIdx, even, Axis.index]
    simp (decide := true) only [if_true, if_false, entry]
    have h0 : atan2 0 0 = 0 := by
      have : (⟨0, 0⟩ : ℂ) = 0 := rfl
      rw [atan2, this, Complex.arg_zero]
    simp [h0, clamp1]
  refine ⟨eulerToMat_rot _ _, he, ?_⟩
  rw [he, hm]
  simp [eulerToMat, axisRot, mul_def]

/-- **C21 (conventions).** The convention check accepts exactly the strings of three letters XYZ whose
middle letter differs from its neighbours. -/
theorem convention_ok_iff (s : String) (cv : Axis × Axis × Axis) :
    convention s = .ok cv ↔ Valid cv ∧ ∃ a b c, s.toList = [a, b, c] ∧
      Axis.parse a = some cv.1 ∧ Axis.parse b = some cv.2.1 ∧ Axis.parse c = some cv.2.2 := by
  have inj : ∀ {a b : Char} {x : Axis}, Axis.parse a = some x → Axis.parse b = some x → a = b := by
    intro a b x ha hb
    unfold Axis.parse at ha hb
    cases x <;> split at ha <;> split at hb <;> simp_all
  have ne : ∀ {a b : Char} {x y : Axis}, Axis.parse a = some x → Axis.parse b = some y →
      a ≠ b → x ≠ y := by
    rintro a b x y ha hb hab rfl
    exact hab (inj ha hb)
  unfold convention
  split
  · rename_i a b c hs
    by_cases hbad : b = a ∨ b = c
    · rw [if_pos hbad]
      constructor
      · intro h; cases h
      · rintro ⟨⟨hv1, hv2⟩, a', b', c', hs', pa, pb, pc⟩
        rw [hs] at hs'
        cases hs'
        rcases hbad with rfl | rfl
        · rw [pa] at pb; exact absurd (Option.some.inj pb).symm hv1
        · rw [pc] at pb; exact absurd (Option.some.inj pb).symm hv2
    · rw [if_neg hbad]
      push Not at hbad
      constructor
      · intro h
        split at h
        · rename_i x y z pa pb pc
          cases h
          exact ⟨⟨ne pb pa hbad.1, ne pb pc hbad.2⟩, a, b, c, hs, pa, pb, pc⟩
        · cases h
      · rintro ⟨_, a', b', c', hs', pa, pb, pc⟩
        rw [hs] at hs'
        cases hs'
        rw [pa, pb, pc]
  · rename_i hne
    constructor
    · intro h; cases h
    · rintro ⟨_, a, b, c, hs, _⟩
      exact absurd hs (hne a b c)

/-! ### Examples -/

example : convention "ZYX" = .ok (.Z, .Y, .X) := by decide
example : convention "ZYY" = .error .value := by decide
example : convention "XYW" = .error .value := by decide
example : Valid (.Z, .Y, .X) := by unfold Valid; decide
example : matToEuler (.Z, .X, .Z) (eulerToMat (.Z, .X, .Z) ⟨1, 2, -3⟩) = ⟨1, 2, -3⟩ :=
  matToEuler_eulerToMat (by unfold Valid; decide)
    (by
      have := Real.pi_gt_three
      simp only [Principal, if_true]
      refine ⟨⟨?_, ?_⟩, ⟨?_, ?_⟩, ?_, ?_⟩ <;> linarith)
-- the identity, in an asymmetric convention
example : eulerToMat (.X, .Z, .Y) (matToEuler (.X, .Z, .Y) 1) = 1 :=
  eulerToMat_matToEuler (by unfold Valid; decide) IsRot.one (by simp [entry, Axis.index])

end P3D.Rot
