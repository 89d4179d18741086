/-
What the lighting formulas mean: cosines and their bounds, lights from behind, mirror directions, exchange of light and viewer, change of the
frame, range of the colours.
-/
import Verif.Lighting
import Mathlib.Tactic.NormNum
import Mathlib.Tactic.Positivity
import Mathlib.Tactic.FieldSimp

set_option linter.unusedSectionVars false

namespace P3D.Light

open P3D.Tens

noncomputable section

theorem normSq_nonneg (v : V3 ℝ) : 0 ≤ V3.normSq v := by
  simp only [V3.normSq, V3.dot]; nlinarith [mul_self_nonneg v.x, mul_self_nonneg v.y, mul_self_nonneg v.z]

theorem norm_sq (v : V3 ℝ) : norm v ^ 2 = V3.normSq v := Real.sq_sqrt (normSq_nonneg v)

theorem norm_nonneg (v : V3 ℝ) : 0 ≤ norm v := Real.sqrt_nonneg _

theorem cauchy (a b : V3 ℝ) : V3.dot a b ^ 2 ≤ V3.normSq a * V3.normSq b := by
  simp only [V3.normSq, V3.dot]
  nlinarith [sq_nonneg (a.x * b.y - a.y * b.x), sq_nonneg (a.x * b.z - a.z * b.x), sq_nonneg (a.y * b.z - a.z * b.y)]

theorem dot_le_norms (a b : V3 ℝ) : |V3.dot a b| ≤ norm a * norm b := by
  have h := cauchy a b
  rw [← norm_sq, ← norm_sq, ← mul_pow] at h
  exact abs_le_of_sq_le_sq h (mul_nonneg (norm_nonneg a) (norm_nonneg b))

theorem maxpos (v : V3 ℝ) : 0 < max (norm v) (1 / 10 ^ 6) := lt_max_of_lt_right (by norm_num)

/-- Directions have length at most one. -/
theorem unit_le_one (v : V3 ℝ) : V3.normSq (unit v) ≤ 1 := by
  rw [unit, V3.normSq_smul, ← norm_sq, inv_pow, ← div_eq_inv_mul, div_le_one (by have := maxpos v; positivity)]
  exact pow_le_pow_left₀ (norm_nonneg v) (le_max_left _ _) 2

/-- Length one, except for vectors shorter than `1e-6`. -/
theorem unit_one {v : V3 ℝ} (h : 1 / 10 ^ 6 ≤ norm v) : V3.normSq (unit v) = 1 := by
  have hp : 0 < norm v := lt_of_lt_of_le (by norm_num) h
  rw [unit, max_eq_left h, V3.normSq_smul, ← norm_sq, ← mul_pow, inv_mul_cancel₀ hp.ne', one_pow]

theorem unit_dot_abs (a b : V3 ℝ) : |V3.dot (unit a) (unit b)| ≤ 1 := by
  have h := cauchy (unit a) (unit b)
  have ha := unit_le_one a
  have hb := unit_le_one b
  have : V3.dot (unit a) (unit b) ^ 2 ≤ 1 := by nlinarith [normSq_nonneg (unit a), normSq_nonneg (unit b)]
  exact abs_le_of_sq_le_sq (by rw [one_pow]; exact this) zero_le_one

theorem norm_smul {c : ℝ} (hc : 0 ≤ c) (v : V3 ℝ) : norm (c • v) = c * norm v := by
  rw [norm, V3.normSq_smul, Real.sqrt_mul (sq_nonneg c), Real.sqrt_sq hc, norm]

/-- Directions do not depend on the length. -/
theorem unit_smul {c : ℝ} {v : V3 ℝ} (hc : 0 < c) (h : 1 / 10 ^ 6 ≤ norm v) (h' : 1 / 10 ^ 6 ≤ norm (c • v)) : unit (c • v) = unit v := by
  have hp : 0 < norm v := lt_of_lt_of_le (by norm_num) h
  rw [unit, unit, max_eq_left h, max_eq_left h', norm_smul hc.le]
  ext <;> simp <;> field_simp

theorem unit_zero : unit 0 = 0 := by ext <;> simp [unit]

/-- Lambert's law: the cosine of the angle, if it is acute. -/
theorem lambert_cos {n l : V3 ℝ} (hn : 1 / 10 ^ 6 ≤ norm n) (hl : 1 / 10 ^ 6 ≤ norm l) :
    lambert n l = max 0 (V3.dot n l / (norm n * norm l)) := by
  rw [lambert, unit, unit, max_eq_left hn, max_eq_left hl, V3.dot_smul, V3.smul_dot]
  congr 1
  rw [div_eq_mul_inv, mul_inv]; ring

theorem lambert_nonneg (n l : V3 ℝ) : 0 ≤ lambert n l := le_max_left _ _

theorem lambert_le_one (n l : V3 ℝ) : lambert n l ≤ 1 := max_le zero_le_one (le_trans (le_abs_self _) (unit_dot_abs n l))

theorem unit_dot (a b : V3 ℝ) : ∃ c : ℝ, 0 < c ∧ V3.dot (unit a) (unit b) = c * V3.dot a b := by
  refine ⟨(max (norm a) (1 / 10 ^ 6))⁻¹ * (max (norm b) (1 / 10 ^ 6))⁻¹, by have := maxpos a; have := maxpos b; positivity, ?_⟩
  rw [unit, unit, V3.dot_smul, V3.smul_dot]; ring

/-- The sign of the product of directions is that of the vectors. -/
theorem unit_dot_pos (a b : V3 ℝ) : 0 < V3.dot (unit a) (unit b) ↔ 0 < V3.dot a b := by
  obtain ⟨c, hc, e⟩ := unit_dot a b
  rw [e]
  exact ⟨fun h => by by_contra h'; push Not at h'; nlinarith, fun h => mul_pos hc h⟩

/-- Light from behind, or along the surface, gives nothing; any other light gives something. -/
theorem lambert_pos (n l : V3 ℝ) : 0 < lambert n l ↔ 0 < V3.dot n l := by
  rw [lambert, lt_max_iff, ← unit_dot_pos n l]
  simp

theorem lambert_behind {n l : V3 ℝ} (h : V3.dot n l ≤ 0) : lambert n l = 0 :=
  le_antisymm (not_lt.mp fun h' => absurd ((lambert_pos n l).mp h') (not_lt.mpr h)) (lambert_nonneg n l)

/-- Full light only along the normal. -/
theorem lambert_facing {n : V3 ℝ} (hn : 1 / 10 ^ 6 ≤ norm n) : lambert n n = 1 := by
  have := unit_one hn
  rw [lambert]
  rw [V3.normSq] at this
  rw [this]; simp

/-- Neither the length of the normal nor the distance of the light matters. -/
theorem lambert_smul {c d : ℝ} {n l : V3 ℝ} (hc : 0 < c) (hd : 0 < d) (hn : 1 / 10 ^ 6 ≤ norm n) (hl : 1 / 10 ^ 6 ≤ norm l)
    (hn' : 1 / 10 ^ 6 ≤ norm (c • n)) (hl' : 1 / 10 ^ 6 ≤ norm (d • l)) : lambert (c • n) (d • l) = lambert n l := by
  rw [lambert, unit_smul hc hn hn', unit_smul hd hl hl', lambert]

/-- The mirror direction has the same angle to the normal as the light, and its length. -/
theorem mirror_angle {n l : V3 ℝ} (hn : 1 / 10 ^ 6 ≤ norm n) :
    V3.dot (mirror n l) (unit n) = V3.dot (unit l) (unit n) ∧ V3.normSq (mirror n l) = V3.normSq (unit l) := by
  have h1 := unit_one hn
  simp only [V3.normSq, V3.dot, mirror, V3.sub_x, V3.sub_y, V3.sub_z, V3.smul_x, V3.smul_y, V3.smul_z] at *
  generalize unit n = a at *
  generalize unit l = b at *
  constructor
  · grind
  · grind

/-- Reflecting twice gives the direction of the light. -/
theorem mirror_mirror {n l : V3 ℝ} (hn : 1 / 10 ^ 6 ≤ norm n) :
    (2 * V3.dot (unit n) (mirror n l)) • unit n - mirror n l = unit l := by
  have h1 := unit_one hn
  simp only [V3.normSq, V3.dot, mirror, V3.sub_x, V3.sub_y, V3.sub_z, V3.smul_x, V3.smul_y, V3.smul_z] at *
  generalize unit n = a at *
  generalize unit l = b at *
  ext <;> simp only [V3.sub_x, V3.sub_y, V3.sub_z, V3.smul_x, V3.smul_y, V3.smul_z] <;> grind

theorem mirror_le_one (n l : V3 ℝ) : V3.normSq (mirror n l) ≤ 1 := by
  have h1 := unit_le_one n
  have h2 := unit_le_one l
  have h3 := normSq_nonneg (unit n)
  have e : V3.normSq (mirror n l) = V3.normSq (unit l) - 4 * V3.dot (unit n) (unit l) ^ 2 * (1 - V3.normSq (unit n)) := by
    simp only [mirror, V3.normSq, V3.dot, V3.sub_x, V3.sub_y, V3.sub_z, V3.smul_x, V3.smul_y, V3.smul_z]; ring
  rw [e]
  nlinarith [mul_nonneg (sq_nonneg (V3.dot (unit n) (unit l))) (sub_nonneg.mpr h1)]

theorem gloss_nonneg (p n l cam : V3 ℝ) : 0 ≤ gloss p n l cam := by
  unfold gloss; split_ifs; exacts [le_max_left _ _, le_rfl]

theorem gloss_le_one (p n l cam : V3 ℝ) : gloss p n l cam ≤ 1 := by
  unfold gloss
  split_ifs
  · refine max_le zero_le_one ?_
    have h := cauchy (unit (cam - p)) (mirror n l)
    have ha := unit_le_one (cam - p)
    have hb := mirror_le_one n l
    have : V3.dot (unit (cam - p)) (mirror n l) ^ 2 ≤ 1 := by
      nlinarith [normSq_nonneg (unit (cam - p)), normSq_nonneg (mirror n l)]
    exact le_trans (le_abs_self _) (abs_le_of_sq_le_sq (by rw [one_pow]; exact this) zero_le_one)
  · exact zero_le_one

/-- No highlight with the light behind the surface. -/
theorem gloss_behind {p n l cam : V3 ℝ} (h : V3.dot n l ≤ 0) : gloss p n l cam = 0 := by
  unfold gloss
  rw [if_neg]
  rw [unit_dot_pos]; exact not_lt.mpr h

/-- The full highlight: the viewer in the mirror direction. -/
theorem gloss_mirror {p n l cam : V3 ℝ} (hn : 1 / 10 ^ 6 ≤ norm n) (hl : 1 / 10 ^ 6 ≤ norm l) (h : 0 < V3.dot n l)
    (hc : unit (cam - p) = mirror n l) : gloss p n l cam = 1 := by
  unfold gloss
  rw [if_pos ((unit_dot_pos n l).mpr h), hc]
  have := (mirror_angle (l := l) hn).2
  rw [unit_one hl, V3.normSq] at this
  rw [this]; simp

/-- Exchange of light and viewer, both in front of the surface. -/
theorem gloss_swap {p n l cam : V3 ℝ} (hl : 0 < V3.dot n l) (hv : 0 < V3.dot n (cam - p)) :
    gloss p n l cam = gloss p n (cam - p) (p + l) := by
  unfold gloss
  rw [if_pos ((unit_dot_pos n l).mpr hl), if_pos ((unit_dot_pos n _).mpr hv)]
  have : p + l - p = l := by ext <;> simp
  rw [this]
  congr 1
  simp only [mirror, V3.dot, V3.sub_x, V3.sub_y, V3.sub_z, V3.smul_x, V3.smul_y, V3.smul_z]; ring

/-- A point and a normal that are zero, as for pixels without a face: neither diffuse light nor highlight. -/
theorem empty_point (l cam : V3 ℝ) : lambert 0 l = 0 ∧ gloss 0 0 l cam = 0 := by
  have : V3.dot (0 : V3 ℝ) l = 0 := by simp [V3.dot]
  exact ⟨lambert_behind this.le, gloss_behind this.le⟩

/-- With shininess zero there is a highlight of full strength everywhere, also behind the surface. -/
theorem specular_zero (g : ℝ) : g ^ (0 : ℝ) = 1 := Real.rpow_zero g

/-- With a positive shininess there is none where the light or the mirror direction is behind. -/
theorem specular_pos {s : ℝ} (hs : 0 < s) : (0 : ℝ) ^ s = 0 := Real.zero_rpow hs.ne'

/-- A larger shininess makes highlights smaller, never larger. -/
theorem shininess_mono {p n l cam : V3 ℝ} {s t : ℝ} (h : s ≤ t) (hg : 0 < gloss p n l cam) :
    gloss p n l cam ^ t ≤ gloss p n l cam ^ s := Real.rpow_le_rpow_of_exponent_ge hg (gloss_le_one p n l cam) h

/-! ### Another frame -/

/-- A map that keeps scalar products, such as a rotation. -/
structure Iso (R : V3 ℝ → V3 ℝ) : Prop where
  sub : ∀ a b, R (a - b) = R a - R b
  smul : ∀ (c : ℝ) a, R (c • a) = c • R a
  dot : ∀ a b, V3.dot (R a) (R b) = V3.dot a b

theorem Iso.unit {R : V3 ℝ → V3 ℝ} (h : Iso R) (v : V3 ℝ) : Light.unit (R v) = R (Light.unit v) := by
  have : norm (R v) = norm v := by rw [norm, norm, V3.normSq, V3.normSq, h.dot]
  rw [Light.unit, Light.unit, h.smul, this]

theorem Iso.lambert {R : V3 ℝ → V3 ℝ} (h : Iso R) (n l : V3 ℝ) : Light.lambert (R n) (R l) = Light.lambert n l := by
  simp only [Light.lambert, h.unit, h.dot]

theorem Iso.gloss {R : V3 ℝ → V3 ℝ} (h : Iso R) (T p n l cam : V3 ℝ) :
    Light.gloss (R p + T) (R n) (R l) (R cam + T) = Light.gloss p n l cam := by
  have e : R cam + T - (R p + T) = R (cam - p) := by rw [h.sub]; ext <;> simp
  have e2 : Light.mirror (R n) (R l) = R (Light.mirror n l) := by
    simp only [mirror, h.unit, h.dot, h.sub, h.smul]
  simp only [Light.gloss, h.unit, h.dot, e, e2]

/-- Lights moved by a rigid motion: directions turned, locations turned and moved, colours the same. -/
inductive Moved (R : V3 ℝ → V3 ℝ) (T : V3 ℝ) (L : Nat) : Lights → Lights → Prop
  | directional {a d s r r' : Ten ℝ} (h : ∀ b, row r' L b = R (row r L b)) : Moved R T L (.directional a d s r) (.directional a d s r')
  | point {a d s r r' : Ten ℝ} (h : ∀ b, row r' L b = R (row r L b) + T) : Moved R T L (.point a d s r) (.point a d s r')
  | ambient {a : Ten ℝ} : Moved R T L (.ambient a) (.ambient a)

/-- Colours do not depend on the frame: scene, lights and camera moved together give the same colours. -/
theorem color_frame {R : V3 ℝ → V3 ℝ} (h : Iso R) {T : V3 ℝ} {L M C C' : Nat} {l l' : Lights} {camera camera' : Ten ℝ} (hl : Moved R T L l l')
    (hc : ∀ b, row camera' C' b = R (row camera C b) + T) (mt : Materials) (b k : Nat) (p n t : V3 ℝ) :
    colorAt l' L mt M camera' C' b k (R p + T) (R n) t = colorAt l L mt M camera C b k p n t := by
  cases hl with
  | directional hr => simp only [colorAt, Lights.amb, Lights.diffuseAt, Lights.specularAt, hr, hc, h.lambert, h.gloss]
  | point hr =>
    have e : ∀ q : V3 ℝ, R q + T - (R p + T) = R (q - p) := by intro q; rw [h.sub]; ext <;> simp
    simp only [colorAt, Lights.amb, Lights.diffuseAt, Lights.specularAt, hr, hc, e, h.lambert, h.gloss]
  | ambient => rfl

/-! ### Range of the colours -/

/-- A colour with components between `0` and `m`. -/
def Within (m : ℝ) (v : V3 ℝ) : Prop := 0 ≤ v.x ∧ v.x ≤ m ∧ 0 ≤ v.y ∧ v.y ≤ m ∧ 0 ≤ v.z ∧ v.z ≤ m

theorem within_add {a b : ℝ} {v w : V3 ℝ} (h : Within a v) (h' : Within b w) : Within (a + b) (v + w) := by
  obtain ⟨a1, a2, a3, a4, a5, a6⟩ := h
  obtain ⟨b1, b2, b3, b4, b5, b6⟩ := h'
  refine ⟨?_, ?_, ?_, ?_, ?_, ?_⟩ <;> simp only [V3.add_x, V3.add_y, V3.add_z] <;> linarith

theorem within_had {a : ℝ} {v w : V3 ℝ} (h : Within a v) (h' : Within 1 w) : Within a (had v w) := by
  obtain ⟨a1, a2, a3, a4, a5, a6⟩ := h
  obtain ⟨b1, b2, b3, b4, b5, b6⟩ := h'
  refine ⟨?_, ?_, ?_, ?_, ?_, ?_⟩ <;> simp only [had] <;> nlinarith

theorem within_smul {c : ℝ} {v : V3 ℝ} (h0 : 0 ≤ c) (h1 : c ≤ 1) (h : Within 1 v) : Within 1 (c • v) := by
  obtain ⟨a1, a2, a3, a4, a5, a6⟩ := h
  refine ⟨?_, ?_, ?_, ?_, ?_, ?_⟩ <;> simp only [V3.smul_x, V3.smul_y, V3.smul_z] <;> nlinarith

/-- All colours of the lights are between 0 and 1. -/
def Lights.Within (l : Lights) (L : Nat) : Prop :=
  match l with
  | .directional a d s _ => ∀ b, Light.Within 1 (row a L b) ∧ Light.Within 1 (row d L b) ∧ Light.Within 1 (row s L b)
  | .point a d s _ => ∀ b, Light.Within 1 (row a L b) ∧ Light.Within 1 (row d L b) ∧ Light.Within 1 (row s L b)
  | .ambient a => ∀ b, Light.Within 1 (row a L b)

theorem within_zero : Within 1 0 := by refine ⟨?_, ?_, ?_, ?_, ?_, ?_⟩ <;> simp

/-- Colours of lights, materials and textures between 0 and 1 give colours between 0 and 3, of which 2 come from the texture. -/
theorem color_range {l : Lights} {L M C : Nat} {mt : Materials} {camera : Ten ℝ} (hl : l.Within L)
    (hm : ∀ b, Within 1 (row mt.ambient M b) ∧ Within 1 (row mt.diffuse M b) ∧ Within 1 (row mt.specular M b))
    (hs : ∀ b, 0 ≤ mt.shininess.get [pick M b]) (b k : Nat) (p n : V3 ℝ) {t : V3 ℝ} (ht : Within 1 t) :
    Within 3 (colorAt l L mt M camera C b k p n t) := by
  have hg : ∀ p n l cam : V3 ℝ, 0 ≤ gloss p n l cam ^ mt.shininess.get [pick M b] ∧ gloss p n l cam ^ mt.shininess.get [pick M b] ≤ 1 :=
    fun p n l cam => ⟨Real.rpow_nonneg (gloss_nonneg p n l cam) _, Real.rpow_le_one (gloss_nonneg p n l cam) (gloss_le_one p n l cam) (hs b)⟩
  have hd : Within 1 (l.diffuseAt L b p n) := by
    cases l with
    | directional a d s r => exact within_smul (lambert_nonneg _ _) (lambert_le_one _ _) (hl b).2.1
    | point a d s r => exact within_smul (lambert_nonneg _ _) (lambert_le_one _ _) (hl b).2.1
    | ambient a => exact within_zero
  have hsp : Within 1 (l.specularAt L b p n (row camera C b) (mt.shininess.get [pick M b])) := by
    cases l with
    | directional a d s r => exact within_smul (hg _ _ _ _).1 (hg _ _ _ _).2 (hl b).2.2
    | point a d s r => exact within_smul (hg _ _ _ _).1 (hg _ _ _ _).2 (hl b).2.2
    | ambient a => exact within_zero
  have ha : Within 1 (row l.amb L b) := by
    cases l with
    | directional a d s r => exact (hl b).1
    | point a d s r => exact (hl b).1
    | ambient a => exact hl b
  have h1 := within_add (within_had (hm b).1 ha) (within_had (hm k).2.1 hd)
  have h2 := within_add (within_had h1 ht) (within_had (hm k).2.2 hsp)
  norm_num at h2
  exact h2

/-! ### Examples -/

/-- An oblique light and a normal that is not of length one. -/
example : V3.dot (⟨0, 0, 2⟩ : V3 ℝ) ⟨4, 0, 3⟩ = 6 ∧ lambert ⟨0, 0, 2⟩ ⟨4, 0, 3⟩ = 3 / 5 := by
  have h1 : norm ⟨0, 0, 2⟩ = 2 := by
    rw [norm, show V3.normSq (⟨0, 0, 2⟩ : V3 ℝ) = 2 ^ 2 by norm_num [V3.normSq, V3.dot], Real.sqrt_sq (by norm_num)]
  have h2 : norm ⟨4, 0, 3⟩ = 5 := by
    rw [norm, show V3.normSq (⟨4, 0, 3⟩ : V3 ℝ) = 5 ^ 2 by norm_num [V3.normSq, V3.dot], Real.sqrt_sq (by norm_num)]
  refine ⟨by norm_num [V3.dot], ?_⟩
  rw [lambert_cos (by rw [h1]; norm_num) (by rw [h2]; norm_num), h1, h2]
  norm_num [V3.dot, max_def]

/-- A viewer behind the surface can see a highlight on it: the side of the viewer is not tested. -/
theorem gloss_viewer_behind : ∃ p n l cam : V3 ℝ, V3.dot n (cam - p) < 0 ∧ 0 < gloss p n l cam := by
  refine ⟨0, ⟨0, 0, 1⟩, ⟨4, 0, 3⟩, ⟨-4, 0, -1⟩, by norm_num [V3.dot], ?_⟩
  have h2 : norm ⟨4, 0, 3⟩ = 5 := by
    rw [norm, show V3.normSq (⟨4, 0, 3⟩ : V3 ℝ) = 5 ^ 2 by norm_num [V3.normSq, V3.dot], Real.sqrt_sq (by norm_num)]
  have h1 : norm ⟨0, 0, 1⟩ = 1 := by
    rw [norm, show V3.normSq (⟨0, 0, 1⟩ : V3 ℝ) = 1 ^ 2 by norm_num [V3.normSq, V3.dot], Real.sqrt_sq (by norm_num)]
  have u1 : unit ⟨0, 0, 1⟩ = ⟨0, 0, 1⟩ := by rw [unit, h1]; ext <;> norm_num
  have u2 : unit ⟨4, 0, 3⟩ = ⟨4 / 5, 0, 3 / 5⟩ := by rw [unit, h2]; ext <;> norm_num
  unfold gloss
  rw [if_pos ((unit_dot_pos _ _).mpr (by norm_num [V3.dot]))]
  have hm : mirror ⟨0, 0, 1⟩ ⟨4, 0, 3⟩ = ⟨-(4 / 5), 0, 3 / 5⟩ := by
    rw [mirror, u1, u2]; ext <;> norm_num [V3.dot]
  rw [hm, lt_max_iff]
  right
  rw [unit, V3.smul_dot]
  exact mul_pos (inv_pos.mpr (maxpos _)) (by norm_num [V3.dot])

end

end P3D.Light
