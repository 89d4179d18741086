/-
C33: barycentric coordinates, perspective correction, clipping, and their backward passes.
-/
import Verif.Geometry
import Mathlib.Algebra.Order.Field.Rat
import Mathlib.Analysis.Calculus.Deriv.Inv
import Mathlib.Analysis.Calculus.Deriv.Mul
import Mathlib.Analysis.Calculus.Deriv.Pow
import Mathlib.Tactic.FieldSimp
import Mathlib.Tactic.Linarith
import Mathlib.Tactic.Positivity

set_option linter.unusedSimpArgs false
set_option linter.unusedSectionVars false

namespace P3D.Geom

section field
variable {K : Type*} [Field K]

/-- Twice the signed area, as used for the denominator. -/
theorem area_eq (p v0 v1 v2 : V2 K) : edge p v1 v2 + edge p v2 v0 + edge p v0 v1 = edge v2 v0 v1 := by
  simp only [edge]; ring

/-- **C33 (sum).** The coordinates sum to `area / (area + 1e-8)`. -/
theorem bary_sum (p v0 v1 v2 : V2 K) : (bary p v0 v1 v2).x + (bary p v0 v1 v2).y + (bary p v0 v1 v2).z
    = edge v2 v0 v1 / (edge v2 v0 v1 + kEps) := by
  simp only [bary]
  rw [← add_div, ← add_div, area_eq]

/-- **C33 (reproduction).** The combination of the vertices is the point, up to that factor. -/
theorem bary_combine (p v0 v1 v2 : V2 K) :
    (bary p v0 v1 v2).x • v0 + (bary p v0 v1 v2).y • v1 + (bary p v0 v1 v2).z • v2
      = (edge v2 v0 v1 / (edge v2 v0 v1 + kEps)) • p := by
  simp only [bary]
  generalize edge v2 v0 v1 + kEps = a
  ext <;> simp only [edge, V2.add_x, V2.add_y, V2.smul_x, V2.smul_y, div_eq_mul_inv] <;> ring

/-- **C33 (affine).** The coordinates are affine functions of the point. -/
theorem bary_affine (p q v0 v1 v2 : V2 K) (t : K) :
    bary ((1 - t) • p + t • q) v0 v1 v2 = (1 - t) • bary p v0 v1 v2 + t • bary q v0 v1 v2 := by
  simp only [bary]
  generalize edge v2 v0 v1 + kEps = a
  ext <;> simp only [edge, V2.add_x, V2.add_y, V2.smul_x, V2.smul_y, V3.add_x, V3.add_y, V3.add_z, V3.smul_x,
    V3.smul_y, V3.smul_z, div_eq_mul_inv] <;> ring

/-- **C33 (cyclic and reversed order).** Cyclic renaming of the vertices permutes the coordinates. -/
theorem bary_cyclic (p v0 v1 v2 : V2 K) : bary p v1 v2 v0
    = ⟨(bary p v0 v1 v2).y, (bary p v0 v1 v2).z, (bary p v0 v1 v2).x⟩ := by
  have h : edge v0 v1 v2 = edge v2 v0 v1 := by simp only [edge]; ring
  simp only [bary, h]

variable [LinearOrder K] [IsStrictOrderedRing K]

theorem kEps_pos : (0 : K) < kEps := by unfold kEps; positivity

/-- Open triangle: strictly convex combinations of the vertices. -/
def InTri (p v0 v1 v2 : V2 K) : Prop :=
  ∃ a b c : K, 0 < a ∧ 0 < b ∧ 0 < c ∧ a + b + c = 1 ∧ p = a • v0 + b • v1 + c • v2

/-- **C33 (inside test).** For triangles the rasterizer does not skip (`|area| > 1e-8`), of either
orientation, all coordinates are positive exactly for the points of the open triangle. -/
theorem bary_inside {p v0 v1 v2 : V2 K} (h : kEps < |edge v2 v0 v1|) :
    (0 < (bary p v0 v1 v2).x ∧ 0 < (bary p v0 v1 v2).y ∧ 0 < (bary p v0 v1 v2).z) ↔ InTri p v0 v1 v2 := by
  have he := kEps_pos (K := K)
  have hA : edge v2 v0 v1 ≠ 0 := fun h0 => by rw [h0, abs_zero] at h; linarith
  have hA' : edge v2 v0 v1 + kEps ≠ 0 := by
    intro h0
    have : edge v2 v0 v1 = -kEps := by linarith
    rw [this, abs_neg, abs_of_pos he] at h
    exact lt_irrefl _ h
  have hr : 0 < edge v2 v0 v1 / (edge v2 v0 v1 + kEps) := by
    rcases lt_or_gt_of_ne hA with h1 | h1
    · rw [abs_of_neg h1] at h
      exact div_pos_of_neg_of_neg h1 (by linarith)
    · exact div_pos h1 (by linarith)
  constructor
  · rintro ⟨h1, h2, h3⟩
    set r := edge v2 v0 v1 / (edge v2 v0 v1 + kEps) with hrd
    refine ⟨(bary p v0 v1 v2).x / r, (bary p v0 v1 v2).y / r, (bary p v0 v1 v2).z / r, div_pos h1 hr,
      div_pos h2 hr, div_pos h3 hr, ?_, ?_⟩
    · rw [← add_div, ← add_div, bary_sum, ← hrd, div_self hr.ne']
    · have hc := bary_combine p v0 v1 v2
      rw [← hrd] at hc
      have hx := congrArg V2.x hc
      have hy := congrArg V2.y hc
      simp only [V2.add_x, V2.add_y, V2.smul_x, V2.smul_y] at hx hy
      ext <;> simp only [V2.add_x, V2.add_y, V2.smul_x, V2.smul_y] <;> field_simp <;> linarith
  · rintro ⟨a, b, c, ha, hb, hc, hs, hp⟩
    have key : bary p v0 v1 v2 = (edge v2 v0 v1 / (edge v2 v0 v1 + kEps)) • ⟨a, b, c⟩ := by
      have hc' : c = 1 - a - b := by linarith
      rw [hp, hc']
      simp only [bary]
      generalize hd : edge v2 v0 v1 + kEps = d at *
      ext <;> simp only [V3.smul_x, V3.smul_y, V3.smul_z] <;> field_simp <;>
        simp only [edge, V2.add_x, V2.add_y, V2.smul_x, V2.smul_y] <;> ring
    rw [key]
    exact ⟨mul_pos hr ha, mul_pos hr hb, mul_pos hr hc⟩

/-! ### Perspective correction -/

/-- **C33 (perspective).** Where the denominator is above 1e-8, and the depths are not zero, the corrected
coordinates are proportional to `b_i / z_i` and sum to one, and the inverse of the interpolated depth is the
linear interpolation of the inverse depths (`1/z = Σ b_i / z_i` when the `b_i` sum to one). -/
theorem perspCorrect_spec {b : V3 K} {z0 z1 z2 : K} (h0 : z0 ≠ 0) (h1 : z1 ≠ 0) (h2 : z2 ≠ 0)
    (hd : kEps ≤ b.x * z1 * z2 + b.y * z0 * z2 + b.z * z0 * z1) :
    let w := perspCorrect b z0 z1 z2
    let s := b.x / z0 + b.y / z1 + b.z / z2
    s ≠ 0 ∧ w = s⁻¹ • (⟨b.x / z0, b.y / z1, b.z / z2⟩ : V3 K) ∧ w.x + w.y + w.z = 1
      ∧ (w.x * z0 + w.y * z1 + w.z * z2) * s = b.x + b.y + b.z := by
  intro w s
  have hD : b.x * z1 * z2 + b.y * z0 * z2 + b.z * z0 * z1 ≠ 0 := (lt_of_lt_of_le kEps_pos hd).ne'
  have hsD : s = (b.x * z1 * z2 + b.y * z0 * z2 + b.z * z0 * z1) / (z0 * z1 * z2) := by
    simp only [s]; field_simp
  have hz : z0 * z1 * z2 ≠ 0 := mul_ne_zero (mul_ne_zero h0 h1) h2
  have hs : s ≠ 0 := by rw [hsD]; exact div_ne_zero hD hz
  have hw : w = s⁻¹ • (⟨b.x / z0, b.y / z1, b.z / z2⟩ : V3 K) := by
    rw [hsD]
    simp only [w, perspCorrect, max_eq_left hd]
    ext <;> simp only [V3.smul_x, V3.smul_y, V3.smul_z] <;> field_simp
  refine ⟨hs, hw, ?_, ?_⟩
  · rw [hw]
    simp only [V3.smul_x, V3.smul_y, V3.smul_z, ← mul_add]
    exact inv_mul_cancel₀ hs
  · rw [hw]
    simp only [V3.smul_x, V3.smul_y, V3.smul_z]
    field_simp

/-- **C33 (perspective and 3D points).** If the screen vertices are the projections `X_i / z_i` of camera-space
points, the corrected coordinates give the camera-space point of the triangle that projects to the pixel. -/
theorem perspCorrect_project {b : V3 K} {z0 z1 z2 : K} (h0 : z0 ≠ 0) (h1 : z1 ≠ 0) (h2 : z2 ≠ 0)
    (hd : kEps ≤ b.x * z1 * z2 + b.y * z0 * z2 + b.z * z0 * z1) (hb : b.x + b.y + b.z = 1) (X0 X1 X2 : K) :
    let w := perspCorrect b z0 z1 z2
    (w.x * X0 + w.y * X1 + w.z * X2) / (w.x * z0 + w.y * z1 + w.z * z2)
      = b.x * (X0 / z0) + b.y * (X1 / z1) + b.z * (X2 / z2) := by
  obtain ⟨hs, hw, h3, h4⟩ := perspCorrect_spec h0 h1 h2 hd
  intro w
  rw [hb] at h4
  have hden : w.x * z0 + w.y * z1 + w.z * z2 = (b.x / z0 + b.y / z1 + b.z / z2)⁻¹ := by
    exact eq_inv_of_mul_eq_one_left h4
  rw [hden]
  simp only [w, hw, V3.smul_x, V3.smul_y, V3.smul_z]
  generalize b.x / z0 + b.y / z1 + b.z / z2 = s at *
  field_simp

/-- **C33 (perspective keeps the inside test).** With positive depths, signs are kept. -/
theorem perspCorrect_sign {b : V3 K} {z0 z1 z2 : K} (h0 : 0 < z0) (h1 : 0 < z1) (h2 : 0 < z2) :
    (0 < (perspCorrect b z0 z1 z2).x ↔ 0 < b.x) ∧ (0 < (perspCorrect b z0 z1 z2).y ↔ 0 < b.y)
      ∧ (0 < (perspCorrect b z0 z1 z2).z ↔ 0 < b.z) := by
  simp only [perspCorrect]
  have hm : 0 < max (b.x * z1 * z2 + b.y * z0 * z2 + b.z * z0 * z1) kEps := lt_max_of_lt_right kEps_pos
  refine ⟨?_, ?_, ?_⟩ <;> rw [div_pos_iff_of_pos_right hm, mul_assoc, mul_pos_iff_of_pos_right (by positivity)]

/-! ### Clipping -/

/-- **C33 (clip).** Clipped coordinates are in [0, 1]; they sum to one exactly when the positive parts sum to
at least 1e-5; coordinates that are already non-negative with sum one are unchanged; negative ones become 0. -/
theorem clip_spec (b : V3 K) :
    (0 ≤ (clip b).x ∧ 0 ≤ (clip b).y ∧ 0 ≤ (clip b).z)
    ∧ ((clip b).x ≤ 1 ∧ (clip b).y ≤ 1 ∧ (clip b).z ≤ 1)
    ∧ ((clip b).x + (clip b).y + (clip b).z = 1 ↔ 1 / 10 ^ 5 ≤ max b.x 0 + max b.y 0 + max b.z 0)
    ∧ (0 ≤ b.x → 0 ≤ b.y → 0 ≤ b.z → b.x + b.y + b.z = 1 → clip b = b)
    ∧ ((b.x ≤ 0 → (clip b).x = 0) ∧ (b.y ≤ 0 → (clip b).y = 0) ∧ (b.z ≤ 0 → (clip b).z = 0)) := by
  have hx := le_max_right b.x 0
  have hy := le_max_right b.y 0
  have hz := le_max_right b.z 0
  have h5 : (0 : K) < 1 / 10 ^ 5 := by positivity
  refine ⟨?_, ?_, ?_, ?_, ?_⟩
  · simp only [clip]
    have hs : 0 < max (max b.x 0 + max b.y 0 + max b.z 0) (1 / 10 ^ 5 : K) := lt_max_of_lt_right h5
    exact ⟨div_nonneg hx hs.le, div_nonneg hy hs.le, div_nonneg hz hs.le⟩
  · simp only [clip]
    have hs : 0 < max (max b.x 0 + max b.y 0 + max b.z 0) (1 / 10 ^ 5 : K) := lt_max_of_lt_right h5
    have hle := le_max_left (max b.x 0 + max b.y 0 + max b.z 0) (1 / 10 ^ 5 : K)
    refine ⟨?_, ?_, ?_⟩ <;> rw [div_le_one hs] <;> linarith
  · simp only [clip]
    have hs : 0 < max (max b.x 0 + max b.y 0 + max b.z 0) (1 / 10 ^ 5 : K) := lt_max_of_lt_right h5
    rw [← add_div, ← add_div, div_eq_one_iff_eq hs.ne']
    constructor
    · intro h; rw [h]; exact le_max_right _ _
    · intro h; rw [max_eq_left h]
  · intro h1 h2 h3 h4
    have h6 : (1 / 10 ^ 5 : K) ≤ 1 := by rw [div_le_one (by positivity)]; norm_num
    simp only [clip, max_eq_left h1, max_eq_left h2, max_eq_left h3, h4, max_eq_left h6, div_one]
  · refine ⟨?_, ?_, ?_⟩ <;> intro h <;> simp only [clip, max_eq_right h, zero_div]

end field

/-! ### Backward passes -/

section deriv

/-- Moving a vector along a direction. -/
def line2 (v d : V2 ℝ) (t : ℝ) : V2 ℝ := v + t • d

theorem line2_zero (v d : V2 ℝ) : line2 v d 0 = v := by ext <;> simp [line2]

theorem hd_congr {f g : ℝ → ℝ} {a b x : ℝ} (h : HasDerivAt g b x) (hf : ∀ t, f t = g t) (he : a = b) :
    HasDerivAt f a x := by
  obtain rfl : f = g := funext hf
  rw [he]; exact h

theorem hd_lin (a c : ℝ) : HasDerivAt (fun t : ℝ => a + t * c) c 0 :=
  hd_congr (((hasDerivAt_id' (0 : ℝ)).mul_const c).const_add a) (fun _ => rfl) (by ring)

theorem hasDerivAt_quad (a b c : ℝ) : HasDerivAt (fun t : ℝ => a + t * b + t ^ 2 * c) b 0 :=
  hd_congr ((hd_lin a b).add ((hasDerivAt_pow 2 (0 : ℝ)).mul_const c)) (fun _ => rfl) (by simp)

/-- Directional derivative of the edge function. -/
def dEdge (p v0 v1 dp d0 d1 : V2 ℝ) : ℝ :=
  (dp.x - d0.x) * (v1.y - v0.y) + (p.x - v0.x) * (d1.y - d0.y) - (dp.y - d0.y) * (v1.x - v0.x)
    - (p.y - v0.y) * (d1.x - d0.x)

theorem hasDerivAt_edge (p v0 v1 dp d0 d1 : V2 ℝ) :
    HasDerivAt (fun t => edge (line2 p dp t) (line2 v0 d0 t) (line2 v1 d1 t)) (dEdge p v0 v1 dp d0 d1) 0 :=
  hd_congr (hasDerivAt_quad (edge p v0 v1) (dEdge p v0 v1 dp d0 d1)
    ((dp.x - d0.x) * (d1.y - d0.y) - (dp.y - d0.y) * (d1.x - d0.x)))
    (fun t => by simp [edge, line2, dEdge]; ring) rfl

/-- **C33 (gradient of the edge function).** -/
theorem edgeBackward_deriv (p v0 v1 dp d0 d1 : V2 ℝ) (g : ℝ) :
    HasDerivAt (fun t => g * edge (line2 p dp t) (line2 v0 d0 t) (line2 v1 d1 t))
      (V2.dot (edgeBackward p v0 v1 g).1 dp + V2.dot (edgeBackward p v0 v1 g).2.1 d0
        + V2.dot (edgeBackward p v0 v1 g).2.2 d1) 0 :=
  hd_congr ((hasDerivAt_edge p v0 v1 dp d0 d1).const_mul g) (fun _ => rfl)
    (by simp [edgeBackward, V2.dot, dEdge]; ring)

/-- **C33 (gradient of the barycentric coordinates).** The backward pass is the derivative of the forward
pass, in every direction of change of the point and the vertices and for every upstream gradient. -/
theorem baryBackward_deriv {p v0 v1 v2 : V2 ℝ} (h : edge v2 v0 v1 + kEps ≠ 0) (dp d0 d1 d2 : V2 ℝ) (g : V3 ℝ) :
    HasDerivAt (fun t => V3.dot g (bary (line2 p dp t) (line2 v0 d0 t) (line2 v1 d1 t) (line2 v2 d2 t)))
      (V2.dot (baryBackward p v0 v1 v2 g).1 dp + V2.dot (baryBackward p v0 v1 v2 g).2.1 d0
        + V2.dot (baryBackward p v0 v1 v2 g).2.2.1 d1 + V2.dot (baryBackward p v0 v1 v2 g).2.2.2 d2) 0 := by
  have hA := (hasDerivAt_edge v2 v0 v1 d2 d0 d1).add_const (kEps : ℝ)
  have h0 := (hasDerivAt_edge p v1 v2 dp d1 d2).const_mul g.x
  have h1 := (hasDerivAt_edge p v2 v0 dp d2 d0).const_mul g.y
  have h2 := (hasDerivAt_edge p v0 v1 dp d0 d1).const_mul g.z
  have hN := (h0.add h1).add h2
  have hne : edge (line2 v2 d2 0) (line2 v0 d0 0) (line2 v1 d1 0) + kEps ≠ 0 := by
    simpa only [line2_zero] using h
  refine hd_congr (hN.div hA hne) ?_ ?_
  · intro t
    simp only [bary, V3.dot, Pi.div_apply, Pi.add_apply]
    ring
  · simp only [line2_zero, Pi.add_apply, baryBackward, edgeBackward]
    generalize hd : edge v2 v0 v1 + kEps = a at *
    simp only [V2.dot, V2.add_x, V2.add_y, V2.smul_x, V2.smul_y]
    rw [eq_div_iff (pow_ne_zero 2 h)]
    field_simp
    simp only [dEdge, edge]
    ring

/-- **C33 (gradient of the perspective correction).** Where the denominator is above 1e-8. -/
theorem perspCorrectBackward_deriv {b : V3 ℝ} {z0 z1 z2 : ℝ}
    (hd : kEps < b.x * z1 * z2 + b.y * z0 * z2 + b.z * z0 * z1) (db : V3 ℝ) (e0 e1 e2 : ℝ) (g : V3 ℝ) :
    HasDerivAt (fun t => V3.dot g (perspCorrect (b + t • db) (z0 + t * e0) (z1 + t * e1) (z2 + t * e2)))
      (V3.dot (perspCorrectBackward b z0 z1 z2 g).1 db + (perspCorrectBackward b z0 z1 z2 g).2.1 * e0
        + (perspCorrectBackward b z0 z1 z2 g).2.2.1 * e1 + (perspCorrectBackward b z0 z1 z2 g).2.2.2 * e2) 0 := by
  have w0 := ((hd_lin b.x db.x).mul (hd_lin z1 e1)).mul (hd_lin z2 e2)
  have w1 := ((hd_lin b.y db.y).mul (hd_lin z0 e0)).mul (hd_lin z2 e2)
  have w2 := ((hd_lin b.z db.z).mul (hd_lin z0 e0)).mul (hd_lin z1 e1)
  have hD := (w0.add w1).add w2
  have hN := ((w0.const_mul g.x).add (w1.const_mul g.y)).add (w2.const_mul g.z)
  have hk := kEps_pos (K := ℝ)
  have hne : b.x * z1 * z2 + b.y * z0 * z2 + b.z * z0 * z1 ≠ 0 := (hk.trans hd).ne'
  have hq := hN.div hD (by simpa using hne)
  have hev := hD.continuousAt.eventually (lt_mem_nhds (a := (kEps : ℝ)) (by simpa using hd))
  refine HasDerivAt.congr_of_eventuallyEq (hd_congr hq (fun t => rfl) ?_) ?_
  · simp only [perspCorrectBackward, max_eq_left hd.le, V3.dot, Pi.add_apply, Pi.mul_apply, zero_mul, add_zero]
    rw [eq_div_iff (pow_ne_zero 2 hne)]
    generalize hDD : b.x * z1 * z2 + b.y * z0 * z2 + b.z * z0 * z1 = D at *
    field_simp
    rw [← hDD]
    ring
  · filter_upwards [hev] with t ht
    simp only [Pi.add_apply, Pi.mul_apply] at ht
    simp only [perspCorrect, V3.dot, V3.add_x, V3.add_y, V3.add_z, V3.smul_x, V3.smul_y, V3.smul_z,
      Pi.div_apply, Pi.add_apply, Pi.mul_apply]
    rw [max_eq_left ht.le]
    ring

/-- The positive part has derivative 1 or 0 away from zero. -/
theorem hd_pos_part {a : ℝ} (c : ℝ) (ha : a ≠ 0) :
    HasDerivAt (fun t : ℝ => max (a + t * c) 0) ((if a < 0 then 0 else 1) * c) 0 := by
  have hl := hd_lin a c
  rcases lt_or_gt_of_ne ha with h | h
  · rw [if_pos h]
    have hev := hl.continuousAt.eventually (gt_mem_nhds (a := (0 : ℝ)) (by simpa using h))
    refine HasDerivAt.congr_of_eventuallyEq (f := fun _ => (0 : ℝ)) ?_ ?_
    · simpa using hasDerivAt_const (0 : ℝ) (0 : ℝ)
    · filter_upwards [hev] with t ht
      exact max_eq_right ht.le
  · rw [if_neg h.not_gt, one_mul]
    have hev := hl.continuousAt.eventually (lt_mem_nhds (a := (0 : ℝ)) (by simpa using h))
    refine HasDerivAt.congr_of_eventuallyEq hl ?_
    filter_upwards [hev] with t ht
    exact max_eq_left ht.le

/-- **C33 (gradient of the clipping).** Where no coordinate is zero and the sum is not 1e-5. -/
theorem clipBackward_deriv {b : V3 ℝ} (hx : b.x ≠ 0) (hy : b.y ≠ 0) (hz : b.z ≠ 0)
    (hs : max b.x 0 + max b.y 0 + max b.z 0 ≠ 1 / 10 ^ 5) (db g : V3 ℝ) :
    HasDerivAt (fun t : ℝ => V3.dot g (clip (b + t • db))) (V3.dot (clipBackward b g) db) 0 := by
  have w0 := hd_pos_part db.x hx
  have w1 := hd_pos_part db.y hy
  have w2 := hd_pos_part db.z hz
  have hS := (w0.add w1).add w2
  have hN := ((w0.const_mul g.x).add (w1.const_mul g.y)).add (w2.const_mul g.z)
  rcases lt_or_gt_of_ne hs with h | h
  · have hev := hS.continuousAt.eventually (gt_mem_nhds (a := (1 / 10 ^ 5 : ℝ)) (by simpa using h))
    refine HasDerivAt.congr_of_eventuallyEq (hd_congr (hN.mul_const (10 ^ 5 : ℝ)) (fun t => rfl) ?_) ?_
    · simp only [clipBackward, if_pos h, V3.dot]
      generalize (if b.x < 0 then (0 : ℝ) else 1) = c0
      generalize (if b.y < 0 then (0 : ℝ) else 1) = c1
      generalize (if b.z < 0 then (0 : ℝ) else 1) = c2
      ring
    · filter_upwards [hev] with t ht
      simp only [Pi.add_apply] at ht
      simp only [clip, V3.dot, V3.add_x, V3.add_y, V3.add_z, V3.smul_x, V3.smul_y, V3.smul_z, Pi.add_apply]
      rw [max_eq_right ht.le]
      ring
  · have hev := hS.continuousAt.eventually (lt_mem_nhds (a := (1 / 10 ^ 5 : ℝ)) (by simpa using h))
    have hne : max b.x 0 + max b.y 0 + max b.z 0 ≠ 0 := (lt_trans (by positivity) h).ne'
    have hq := hN.div hS (by simpa using hne)
    refine HasDerivAt.congr_of_eventuallyEq (hd_congr hq (fun t => rfl) ?_) ?_
    · simp only [clipBackward, if_neg h.not_gt, V3.dot, Pi.add_apply, zero_mul, add_zero]
      rw [eq_div_iff (pow_ne_zero 2 hne)]
      generalize (if b.x < 0 then (0 : ℝ) else 1) = c0
      generalize (if b.y < 0 then (0 : ℝ) else 1) = c1
      generalize (if b.z < 0 then (0 : ℝ) else 1) = c2
      generalize hDD : max b.x 0 + max b.y 0 + max b.z 0 = D at *
      field_simp
      rw [← hDD]
      ring
    · filter_upwards [hev] with t ht
      simp only [Pi.add_apply] at ht
      simp only [clip, V3.dot, V3.add_x, V3.add_y, V3.add_z, V3.smul_x, V3.smul_y, V3.smul_z, Pi.div_apply,
        Pi.add_apply]
      rw [max_eq_left ht.le]
      ring

end deriv

/-! ### Examples -/

/-- A triangle of doubled area -12 (clockwise in the convention of the code) and an interior point. -/
example : bary (⟨1, 1⟩ : V2 ℚ) ⟨0, 0⟩ ⟨4, 0⟩ ⟨0, 3⟩ = (-12 / (-12 + 1 / 10 ^ 8) : ℚ) • (⟨5 / 12, 1 / 4, 1 / 3⟩ : V3 ℚ) := by
  decide +kernel

example : InTri (⟨1, 1⟩ : V2 ℚ) ⟨0, 0⟩ ⟨4, 0⟩ ⟨0, 3⟩ :=
  (bary_inside (by decide +kernel)).mp (by decide +kernel)

example : ¬ InTri (⟨3, 1⟩ : V2 ℚ) ⟨0, 0⟩ ⟨4, 0⟩ ⟨0, 3⟩ :=
  fun h => absurd ((bary_inside (by decide +kernel)).mpr h) (by decide +kernel)

/-- Depths 1, 2, 4 and equal screen weights: the corrected weights favour the near vertex. -/
example : perspCorrect (⟨1 / 3, 1 / 3, 1 / 3⟩ : V3 ℚ) 1 2 4 = ⟨4 / 7, 2 / 7, 1 / 7⟩ := by decide +kernel

example : clip (⟨-1 / 2, 1 / 2, 1⟩ : V3 ℚ) = ⟨0, 1 / 3, 2 / 3⟩ := by decide +kernel

/-- All coordinates negative: the clipped ones do not sum to one. -/
example : clip (⟨-1, -1 / 2, 0⟩ : V3 ℚ) = ⟨0, 0, 0⟩ := by decide +kernel

end P3D.Geom
