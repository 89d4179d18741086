/-
C34: the backward passes of the distance functions are derivatives of the forward passes.
-/
import Verif.DistanceProps
import Mathlib.Analysis.SpecialFunctions.Sqrt

set_option linter.unusedSimpArgs false
set_option linter.unusedSectionVars false

namespace P3D.Geom
open Filter Topology

/-- The square of the positive part is differentiable everywhere. -/
theorem hd_sq_pos (x : ℝ) : HasDerivAt (fun x : ℝ => max x 0 ^ 2) (2 * max x 0) x := by
  rcases lt_trichotomy x 0 with h | h | h
  · refine HasDerivAt.congr_of_eventuallyEq (f := fun _ => (0 : ℝ)) ?_ ?_
    · rw [max_eq_right h.le, mul_zero]; exact hasDerivAt_const _ _
    · filter_upwards [gt_mem_nhds h] with t ht
      rw [max_eq_right ht.le]; simp
  · subst h
    rw [max_self, mul_zero, hasDerivAt_iff_tendsto_slope]
    have hc : Tendsto (fun y : ℝ => max y 0) (𝓝[≠] 0) (𝓝 0) := by
      have : Continuous fun y : ℝ => max y 0 := by fun_prop
      have h := this.tendsto 0
      simp only [max_self] at h
      exact h.mono_left nhdsWithin_le_nhds
    refine hc.congr' ?_
    filter_upwards [self_mem_nhdsWithin] with y hy
    have hy : y ≠ 0 := hy
    simp only [slope, vsub_eq_sub, smul_eq_mul, sub_zero, max_self]
    rcases le_total y 0 with h | h
    · rw [max_eq_right h]; simp
    · rw [max_eq_left h]; field_simp; ring
  · refine HasDerivAt.congr_of_eventuallyEq (f := fun y => y ^ 2) ?_ ?_
    · rw [max_eq_left h.le]; simpa using hasDerivAt_pow 2 x
    · filter_upwards [lt_mem_nhds h] with t ht
      rw [max_eq_left ht.le]

theorem clamp_value {B L : ℝ} (hL : 0 < L) (A : ℝ) :
    A - 2 * clamp01 (B / L) * B + clamp01 (B / L) ^ 2 * L = A - (max B 0 ^ 2 - max (B - L) 0 ^ 2) / L := by
  unfold clamp01
  rcases le_total B 0 with h | h
  · have h1 : B / L ≤ 0 := div_nonpos_of_nonpos_of_nonneg h hL.le
    rw [max_eq_right h1, min_eq_left zero_le_one, max_eq_right h, max_eq_right (by linarith)]; simp
  · have h1 : 0 ≤ B / L := div_nonneg h hL.le
    rw [max_eq_left h1, max_eq_left h]
    rcases le_total B L with h2 | h2
    · rw [min_eq_left ((div_le_one hL).mpr h2), max_eq_right (by linarith)]; field_simp; ring
    · rw [min_eq_right ((one_le_div hL).mpr h2), max_eq_left (by linarith)]; field_simp; ring

/-- Derivative of the squared distance `A - 2 τ B + τ² L` with clamped `τ = B / L`: `τ` acts as a constant. -/
theorem hd_clamped {A B L : ℝ → ℝ} {a b l : ℝ} (hA : HasDerivAt A a 0) (hB : HasDerivAt B b 0)
    (hL : HasDerivAt L l 0) (h : 0 < L 0) :
    HasDerivAt (fun t => A t - (max (B t) 0 ^ 2 - max (B t - L t) 0 ^ 2) / L t)
      (a - 2 * clamp01 (B 0 / L 0) * b + clamp01 (B 0 / L 0) ^ 2 * l) 0 := by
  have h1 := (hd_sq_pos (B 0)).comp (0 : ℝ) hB
  have h2 := (hd_sq_pos (B 0 - L 0)).comp (0 : ℝ) (hB.sub hL)
  have hq := hA.sub ((h1.sub h2).div hL h.ne')
  refine hd_congr hq (fun t => rfl) ?_
  simp only [Function.comp, Pi.sub_apply]
  unfold clamp01
  generalize B 0 = B0 at *
  generalize L 0 = L0 at *
  rcases le_total B0 0 with h3 | h3
  · have h4 : B0 / L0 ≤ 0 := div_nonpos_of_nonpos_of_nonneg h3 h.le
    rw [max_eq_right h4, min_eq_left zero_le_one, max_eq_right h3, max_eq_right (by linarith)]; simp
  · have h4 : 0 ≤ B0 / L0 := div_nonneg h3 h.le
    rw [max_eq_left h4, max_eq_left h3]
    rcases le_total B0 L0 with h5 | h5
    · rw [min_eq_left ((div_le_one h).mpr h5), max_eq_right (by linarith)]; field_simp; ring
    · rw [min_eq_right ((one_le_div h).mpr h5), max_eq_left (by linarith)]; field_simp; ring

/-! ### Segments -/

/-- Sum of the scalar products of the three gradients with the directions. -/
def pair3 (r : V2 ℝ × V2 ℝ × V2 ℝ) (dp d0 d1 : V2 ℝ) : ℝ := V2.dot r.1 dp + V2.dot r.2.1 d0 + V2.dot r.2.2 d1

/-- **C34 (gradient, segment in the plane).** For segments longer than 1e-4 the backward pass is the derivative
of the forward pass, for all positions of the point. -/
theorem pointLineBackward_deriv {p v0 v1 : V2 ℝ} (h : kEps < V2.dot (v1 - v0) (v1 - v0)) (dp d0 d1 : V2 ℝ) (g : ℝ) :
    HasDerivAt (fun t => g * pointLine (line2 p dp t) (line2 v0 d0 t) (line2 v1 d1 t))
      (pair3 (pointLineBackward p v0 v1 g) dp d0 d1) 0 := by
  have hk := kEps_pos (K := ℝ)
  have hA := hasDerivAt_quad (V2.dot (p - v0) (p - v0)) (2 * V2.dot (p - v0) (dp - d0)) (V2.dot (dp - d0) (dp - d0))
  have hB := hasDerivAt_quad (V2.dot (v1 - v0) (p - v0)) (V2.dot (d1 - d0) (p - v0) + V2.dot (v1 - v0) (dp - d0))
    (V2.dot (d1 - d0) (dp - d0))
  have hL := hasDerivAt_quad (V2.dot (v1 - v0) (v1 - v0)) (2 * V2.dot (v1 - v0) (d1 - d0))
    (V2.dot (d1 - d0) (d1 - d0))
  have hq := (hd_clamped hA hB hL (by simpa using hk.trans h)).const_mul g
  have hev := hL.continuousAt.eventually (lt_mem_nhds (a := (kEps : ℝ)) (by simpa using h))
  refine HasDerivAt.congr_of_eventuallyEq (hd_congr hq (fun t => rfl) ?_) ?_
  · simp only [zero_mul, add_zero, ne_eq, OfNat.ofNat_ne_zero, not_false_eq_true, zero_pow, pair3, pointLineBackward]
    generalize clamp01 (V2.dot (v1 - v0) (p - v0) / V2.dot (v1 - v0) (v1 - v0)) = s
    simp only [V2.dot, V2.sub_x, V2.sub_y, V2.add_x, V2.add_y, V2.smul_x, V2.smul_y]; ring
  · filter_upwards [hev] with t ht
    have eA : V2.dot (line2 p dp t - line2 v0 d0 t) (line2 p dp t - line2 v0 d0 t)
        = V2.dot (p - v0) (p - v0) + t * (2 * V2.dot (p - v0) (dp - d0)) + t ^ 2 * V2.dot (dp - d0) (dp - d0) := by
      simp only [line2, V2.dot, V2.sub_x, V2.sub_y, V2.add_x, V2.add_y, V2.smul_x, V2.smul_y]; ring
    have eB : V2.dot (line2 v1 d1 t - line2 v0 d0 t) (line2 p dp t - line2 v0 d0 t)
        = V2.dot (v1 - v0) (p - v0) + t * (V2.dot (d1 - d0) (p - v0) + V2.dot (v1 - v0) (dp - d0))
          + t ^ 2 * V2.dot (d1 - d0) (dp - d0) := by
      simp only [line2, V2.dot, V2.sub_x, V2.sub_y, V2.add_x, V2.add_y, V2.smul_x, V2.smul_y]; ring
    have eL : V2.dot (line2 v1 d1 t - line2 v0 d0 t) (line2 v1 d1 t - line2 v0 d0 t)
        = V2.dot (v1 - v0) (v1 - v0) + t * (2 * V2.dot (v1 - v0) (d1 - d0)) + t ^ 2 * V2.dot (d1 - d0) (d1 - d0) := by
      simp only [line2, V2.dot, V2.sub_x, V2.sub_y, V2.add_x, V2.add_y, V2.smul_x, V2.smul_y]; ring
    rw [← eL] at ht
    congr 1
    rw [← eA, ← eB, ← eL, ← clamp_value (hk.trans ht)]
    simp only [pointLine, if_neg ht.not_ge]
    generalize line2 p dp t = P
    generalize line2 v0 d0 t = Q
    generalize line2 v1 d1 t = R
    generalize clamp01 (V2.dot (R - Q) (P - Q) / V2.dot (R - Q) (R - Q)) = s
    simp only [V2.dot, V2.sub_x, V2.sub_y, V2.add_x, V2.add_y, V2.smul_x, V2.smul_y]; ring

/-- Moving a vector in space along a direction. -/
def line3 (v d : V3 ℝ) (t : ℝ) : V3 ℝ := v + t • d

theorem line3_zero (v d : V3 ℝ) : line3 v d 0 = v := by ext <;> simp [line3]

/-- **C34 (gradient, segment in space).** -/
theorem pointLine3Backward_deriv {p v0 v1 : V3 ℝ} (h : kEps < V3.dot (v1 - v0) (v1 - v0)) (dp d0 d1 : V3 ℝ) (g : ℝ) :
    HasDerivAt (fun t => g * pointLine3 (line3 p dp t) (line3 v0 d0 t) (line3 v1 d1 t))
      (V3.dot (pointLine3Backward p v0 v1 g).1 dp + V3.dot (pointLine3Backward p v0 v1 g).2.1 d0
        + V3.dot (pointLine3Backward p v0 v1 g).2.2 d1) 0 := by
  have hk := kEps_pos (K := ℝ)
  have hA := hasDerivAt_quad (V3.dot (p - v0) (p - v0)) (2 * V3.dot (p - v0) (dp - d0)) (V3.dot (dp - d0) (dp - d0))
  have hB := hasDerivAt_quad (V3.dot (v1 - v0) (p - v0)) (V3.dot (d1 - d0) (p - v0) + V3.dot (v1 - v0) (dp - d0))
    (V3.dot (d1 - d0) (dp - d0))
  have hL := hasDerivAt_quad (V3.dot (v1 - v0) (v1 - v0)) (2 * V3.dot (v1 - v0) (d1 - d0))
    (V3.dot (d1 - d0) (d1 - d0))
  have hpos := hk.trans h
  have hq := (hd_clamped hA hB hL (by simpa using hpos)).const_mul g
  have hev := hL.continuousAt.eventually (lt_mem_nhds (a := (kEps : ℝ)) (by simpa using h))
  refine HasDerivAt.congr_of_eventuallyEq (hd_congr hq (fun t => rfl) ?_) ?_
  · simp only [zero_mul, add_zero, ne_eq, OfNat.ofNat_ne_zero, not_false_eq_true, zero_pow, pointLine3Backward,
      if_neg h.not_gt]
    by_cases h1 : V3.dot (v1 - v0) (p - v0) / V3.dot (v1 - v0) (v1 - v0) < 0
    · have hc : clamp01 (V3.dot (v1 - v0) (p - v0) / V3.dot (v1 - v0) (v1 - v0)) = 0 := by
        unfold clamp01; rw [max_eq_right h1.le, min_eq_left zero_le_one]
      rw [hc, if_pos h1]
      simp only [V3.dot, V3.sub_x, V3.sub_y, V3.sub_z, V3.smul_x, V3.smul_y, V3.smul_z, V3.zero_x, V3.zero_y,
        V3.zero_z]; ring
    · rw [if_neg h1]
      by_cases h2 : V3.dot (v1 - v0) (p - v0) / V3.dot (v1 - v0) (v1 - v0) > 1
      · have hc : clamp01 (V3.dot (v1 - v0) (p - v0) / V3.dot (v1 - v0) (v1 - v0)) = 1 := by
          unfold clamp01; rw [max_eq_left (not_lt.mp h1), min_eq_right h2.le]
        rw [hc, if_pos h2]
        simp only [V3.dot, V3.sub_x, V3.sub_y, V3.sub_z, V3.smul_x, V3.smul_y, V3.smul_z, V3.zero_x, V3.zero_y,
          V3.zero_z]; ring
      · have hc : clamp01 (V3.dot (v1 - v0) (p - v0) / V3.dot (v1 - v0) (v1 - v0))
            = V3.dot (v1 - v0) (p - v0) / V3.dot (v1 - v0) (v1 - v0) := by
          unfold clamp01; rw [max_eq_left (not_lt.mp h1), min_eq_left (not_lt.mp h2)]
        rw [hc, if_neg h2]
        have hz : V3.dot ((g * 2) • (p - (v0 + (V3.dot (v1 - v0) (p - v0) / V3.dot (v1 - v0) (v1 - v0)) • (v1 - v0))))
            (v1 - v0) = 0 := by
          rw [V3.smul_dot]
          have : V3.dot (p - (v0 + (V3.dot (v1 - v0) (p - v0) / V3.dot (v1 - v0) (v1 - v0)) • (v1 - v0))) (v1 - v0)
              = V3.dot (v1 - v0) (p - v0) - V3.dot (v1 - v0) (p - v0) / V3.dot (v1 - v0) (v1 - v0)
                * V3.dot (v1 - v0) (v1 - v0) := by
            generalize V3.dot (v1 - v0) (p - v0) / V3.dot (v1 - v0) (v1 - v0) = s
            simp only [V3.dot, V3.sub_x, V3.sub_y, V3.sub_z, V3.add_x, V3.add_y, V3.add_z, V3.smul_x, V3.smul_y,
              V3.smul_z]; ring
          rw [this, div_mul_cancel₀ _ hpos.ne']; ring
        rw [hz]
        generalize V3.dot (v1 - v0) (p - v0) / V3.dot (v1 - v0) (v1 - v0) = s
        simp only [V3.dot, V3.sub_x, V3.sub_y, V3.sub_z, V3.add_x, V3.add_y, V3.add_z, V3.smul_x, V3.smul_y,
          V3.smul_z]; ring
  · filter_upwards [hev] with t ht
    have eA : V3.dot (line3 p dp t - line3 v0 d0 t) (line3 p dp t - line3 v0 d0 t)
        = V3.dot (p - v0) (p - v0) + t * (2 * V3.dot (p - v0) (dp - d0)) + t ^ 2 * V3.dot (dp - d0) (dp - d0) := by
      simp only [line3, V3.dot, V3.sub_x, V3.sub_y, V3.sub_z, V3.add_x, V3.add_y, V3.add_z, V3.smul_x, V3.smul_y,
        V3.smul_z]; ring
    have eB : V3.dot (line3 v1 d1 t - line3 v0 d0 t) (line3 p dp t - line3 v0 d0 t)
        = V3.dot (v1 - v0) (p - v0) + t * (V3.dot (d1 - d0) (p - v0) + V3.dot (v1 - v0) (dp - d0))
          + t ^ 2 * V3.dot (d1 - d0) (dp - d0) := by
      simp only [line3, V3.dot, V3.sub_x, V3.sub_y, V3.sub_z, V3.add_x, V3.add_y, V3.add_z, V3.smul_x, V3.smul_y,
        V3.smul_z]; ring
    have eL : V3.dot (line3 v1 d1 t - line3 v0 d0 t) (line3 v1 d1 t - line3 v0 d0 t)
        = V3.dot (v1 - v0) (v1 - v0) + t * (2 * V3.dot (v1 - v0) (d1 - d0)) + t ^ 2 * V3.dot (d1 - d0) (d1 - d0) := by
      simp only [line3, V3.dot, V3.sub_x, V3.sub_y, V3.sub_z, V3.add_x, V3.add_y, V3.add_z, V3.smul_x, V3.smul_y,
        V3.smul_z]; ring
    rw [← eL] at ht
    congr 1
    rw [← eA, ← eB, ← eL, ← clamp_value (hk.trans ht)]
    simp only [pointLine3, if_neg ht.not_ge]
    generalize line3 p dp t = P
    generalize line3 v0 d0 t = Q
    generalize line3 v1 d1 t = R
    generalize clamp01 (V3.dot (R - Q) (P - Q) / V3.dot (R - Q) (R - Q)) = s
    simp only [V3.dot, V3.sub_x, V3.sub_y, V3.sub_z, V3.add_x, V3.add_y, V3.add_z, V3.smul_x, V3.smul_y,
      V3.smul_z]; ring

/-- **C34 (short segments, defect).** For a short segment in space the backward pass distributes the gradient
evenly over both ends although the forward pass only depends on `v1`: moving `v0` does not change the forward
value, but its gradient is not zero. -/
theorem pointLine3Backward_short {p v0 v1 : V3 ℝ} (h : V3.dot (v1 - v0) (v1 - v0) < kEps) (d0 : V3 ℝ) (g : ℝ) :
    (pointLine3Backward p v0 v1 g).2.1 = (-g) • (p - v0)
      ∧ HasDerivAt (fun t => g * pointLine3 p (line3 v0 d0 t) v1) 0 0 := by
  constructor
  · simp only [pointLine3Backward, if_pos h]
    ext <;> simp <;> ring
  · have hL := hasDerivAt_quad (V3.dot (v1 - v0) (v1 - v0)) (-2 * V3.dot (v1 - v0) d0) (V3.dot d0 d0)
    have hev := hL.continuousAt.eventually (gt_mem_nhds (a := (kEps : ℝ)) (by simpa using h))
    refine HasDerivAt.congr_of_eventuallyEq (hasDerivAt_const (0 : ℝ) (g * V3.dot (p - v1) (p - v1))) ?_
    filter_upwards [hev] with t ht
    have eL : V3.dot (v1 - line3 v0 d0 t) (v1 - line3 v0 d0 t)
        = V3.dot (v1 - v0) (v1 - v0) + t * (-2 * V3.dot (v1 - v0) d0) + t ^ 2 * V3.dot d0 d0 := by
      simp only [line3, V3.dot, V3.sub_x, V3.sub_y, V3.sub_z, V3.add_x, V3.add_y, V3.add_z, V3.smul_x, V3.smul_y,
        V3.smul_z]; ring
    rw [← eL] at ht
    simp only [pointLine3, if_pos ht.le]

/-! ### Triangles in the plane -/

/-- Sum of the scalar products of the four gradients with the directions. -/
def pair4 (r : V2 ℝ × V2 ℝ × V2 ℝ × V2 ℝ) (dp d0 d1 d2 : V2 ℝ) : ℝ :=
  V2.dot r.1 dp + V2.dot r.2.1 d0 + V2.dot r.2.2.1 d1 + V2.dot r.2.2.2 d2

/-- **C34 (gradient, triangle in the plane).** Where one side is strictly the closest, the backward pass is the
derivative of the forward pass. -/
theorem pointTriBackward_deriv {p v0 v1 v2 : V2 ℝ} (h01 : kEps < V2.dot (v1 - v0) (v1 - v0))
    (h02 : kEps < V2.dot (v2 - v0) (v2 - v0)) (h12 : kEps < V2.dot (v2 - v1) (v2 - v1))
    (hs : (pointLine p v0 v1 < pointLine p v0 v2 ∧ pointLine p v0 v1 < pointLine p v1 v2)
      ∨ (pointLine p v0 v2 < pointLine p v0 v1 ∧ pointLine p v0 v2 < pointLine p v1 v2)
      ∨ (pointLine p v1 v2 < pointLine p v0 v1 ∧ pointLine p v1 v2 < pointLine p v0 v2))
    (dp d0 d1 d2 : V2 ℝ) (g : ℝ) :
    HasDerivAt (fun t => g * pointTri (line2 p dp t) (line2 v0 d0 t) (line2 v1 d1 t) (line2 v2 d2 t))
      (pair4 (pointTriBackward p v0 v1 v2 g) dp d0 d1 d2) 0 := by
  have D01 := pointLineBackward_deriv (p := p) h01 dp d0 d1 g
  have D02 := pointLineBackward_deriv (p := p) h02 dp d0 d2 g
  have D12 := pointLineBackward_deriv (p := p) h12 dp d1 d2 g
  have C01 := (pointLineBackward_deriv (p := p) h01 dp d0 d1 1).continuousAt
  have C02 := (pointLineBackward_deriv (p := p) h02 dp d0 d2 1).continuousAt
  have C12 := (pointLineBackward_deriv (p := p) h12 dp d1 d2 1).continuousAt
  simp only [one_mul] at C01 C02 C12
  have lt : ∀ {f k : ℝ → ℝ}, ContinuousAt f 0 → ContinuousAt k 0 → f 0 < k 0 → ∀ᶠ t in 𝓝 (0 : ℝ), f t < k t :=
    fun hf hk h => hf.eventually_lt hk h
  rcases hs with ⟨a, b⟩ | ⟨a, b⟩ | ⟨a, b⟩
  · have e1 := lt C01 C02 (by simpa only [line2_zero] using a)
    have e2 := lt C01 C12 (by simpa only [line2_zero] using b)
    refine HasDerivAt.congr_of_eventuallyEq (hd_congr D01 (fun _ => rfl) ?_) ?_
    · simp only [pointTriBackward, if_pos (And.intro a.le b.le), pair4, pair3]; simp [V2.dot]
    · filter_upwards [e1, e2] with t h1 h2
      simp only [pointTri]
      rw [min_eq_left h1.le, min_eq_left h2.le]
  · have e1 := lt C02 C01 (by simpa only [line2_zero] using a)
    have e2 := lt C02 C12 (by simpa only [line2_zero] using b)
    refine HasDerivAt.congr_of_eventuallyEq (hd_congr D02 (fun _ => rfl) ?_) ?_
    · simp only [pointTriBackward, if_neg (fun h : _ ∧ _ => absurd h.1 a.not_ge), if_pos (And.intro a.le b.le), pair4,
        pair3]; simp [V2.dot]
    · filter_upwards [e1, e2] with t h1 h2
      simp only [pointTri]
      rw [min_eq_right h1.le, min_eq_left h2.le]
  · have e1 := lt C12 C01 (by simpa only [line2_zero] using a)
    have e2 := lt C12 C02 (by simpa only [line2_zero] using b)
    refine HasDerivAt.congr_of_eventuallyEq (hd_congr D12 (fun _ => rfl) ?_) ?_
    · simp only [pointTriBackward, if_neg (fun h : _ ∧ _ => absurd h.2 a.not_ge),
        if_neg (fun h : _ ∧ _ => absurd h.2 b.not_ge), if_pos (And.intro a.le b.le), pair4, pair3]; simp [V2.dot]
    · filter_upwards [e1, e2] with t h1 h2
      simp only [pointTri]
      rw [min_eq_right (le_min h1.le h2.le)]

/-! ### Triangles in space -/

/-- Directional derivative of the unnormalized normal. -/
def dRaw (v0 v1 v2 d0 d1 d2 : V3 ℝ) : V3 ℝ := V3.cross (d2 - d0) (v1 - v0) + V3.cross (v2 - v0) (d1 - d0)

theorem rawNormal_line (v0 v1 v2 d0 d1 d2 : V3 ℝ) (t : ℝ) :
    rawNormal (line3 v0 d0 t) (line3 v1 d1 t) (line3 v2 d2 t)
      = rawNormal v0 v1 v2 + t • dRaw v0 v1 v2 d0 d1 d2 + t ^ 2 • rawNormal d0 d1 d2 := by
  ext <;> simp only [rawNormal, dRaw, line3, V3.cross, V3.sub_x, V3.sub_y, V3.sub_z, V3.add_x, V3.add_y, V3.add_z,
    V3.smul_x, V3.smul_y, V3.smul_z] <;> ring

/-- Relative error of `normalize_backward`, which differentiates `n / (|n| + 1e-8)` as if the quotient had
length one. -/
noncomputable def normErr (v0 v1 v2 : V3 ℝ) : ℝ :=
  1 / Rot.norm (rawNormal v0 v1 v2) - Rot.norm (rawNormal v0 v1 v2) ^ 2 / (Rot.norm (rawNormal v0 v1 v2) + kEps) ^ 3

theorem normErr_bound {v0 v1 v2 : V3 ℝ} (h : 0 < Rot.norm (rawNormal v0 v1 v2)) :
    0 ≤ normErr v0 v1 v2 ∧ normErr v0 v1 v2
      ≤ 3 * kEps / (Rot.norm (rawNormal v0 v1 v2) * (Rot.norm (rawNormal v0 v1 v2) + kEps)) := by
  unfold normErr
  have hk := kEps_pos (K := ℝ)
  generalize Rot.norm (rawNormal v0 v1 v2) = m at *
  generalize (kEps : ℝ) = e at *
  have e1 : 1 / m - m ^ 2 / (m + e) ^ 3 = (e * ((m + e) ^ 2 + (m + e) * m + m ^ 2)) / (m * (m + e) ^ 3) := by
    field_simp; ring
  rw [e1]
  constructor
  · positivity
  · rw [div_le_div_iff₀ (by positivity) (by positivity)]
    have : (m + e) ^ 2 + (m + e) * m + m ^ 2 ≤ 3 * (m + e) ^ 2 := by nlinarith
    calc e * ((m + e) ^ 2 + (m + e) * m + m ^ 2) * (m * (m + e))
        ≤ e * (3 * (m + e) ^ 2) * (m * (m + e)) := by gcongr
      _ = 3 * e * (m * (m + e) ^ 3) := by ring

theorem hd_dot {a b : ℝ → V3 ℝ} {a' b' : V3 ℝ}
    (hax : HasDerivAt (fun t => (a t).x) a'.x 0) (hay : HasDerivAt (fun t => (a t).y) a'.y 0)
    (haz : HasDerivAt (fun t => (a t).z) a'.z 0) (hbx : HasDerivAt (fun t => (b t).x) b'.x 0)
    (hby : HasDerivAt (fun t => (b t).y) b'.y 0) (hbz : HasDerivAt (fun t => (b t).z) b'.z 0) :
    HasDerivAt (fun t => V3.dot (a t) (b t)) (V3.dot a' (b 0) + V3.dot (a 0) b') 0 :=
  hd_congr (((hax.mul hbx).add (hay.mul hby)).add (haz.mul hbz)) (fun _ => rfl) (by simp only [V3.dot]; ring)

theorem hd_quad3 (a b c : V3 ℝ) :
    HasDerivAt (fun t : ℝ => (a + t • b + t ^ 2 • c).x) b.x 0 ∧ HasDerivAt (fun t : ℝ => (a + t • b + t ^ 2 • c).y) b.y 0
      ∧ HasDerivAt (fun t : ℝ => (a + t • b + t ^ 2 • c).z) b.z 0 :=
  ⟨hasDerivAt_quad a.x b.x c.x, hasDerivAt_quad a.y b.y c.y, hasDerivAt_quad a.z b.z c.z⟩

/-- Derivative of the normalized plane distance. -/
theorem hd_planeT {p v0 v1 v2 : V3 ℝ} (h : 0 < Rot.norm (rawNormal v0 v1 v2)) (dp d0 d1 d2 : V3 ℝ) :
    HasDerivAt (fun t => planeT (line3 p dp t) (line3 v0 d0 t) (line3 v1 d1 t) (line3 v2 d2 t))
      ((V3.dot (d0 - dp) (rawNormal v0 v1 v2) + V3.dot (v0 - p) (dRaw v0 v1 v2 d0 d1 d2))
          / (Rot.norm (rawNormal v0 v1 v2) + kEps)
        - V3.dot (v0 - p) (rawNormal v0 v1 v2)
          * (V3.dot (rawNormal v0 v1 v2) (dRaw v0 v1 v2 d0 d1 d2) / Rot.norm (rawNormal v0 v1 v2))
          / (Rot.norm (rawNormal v0 v1 v2) + kEps) ^ 2) 0 := by
  have hk := kEps_pos (K := ℝ)
  have hm := Rot.norm_mul_self (rawNormal v0 v1 v2)
  have hn2 : V3.normSq (rawNormal v0 v1 v2) ≠ 0 := by rw [← hm]; positivity
  obtain ⟨nx, ny, nz⟩ := hd_quad3 (rawNormal v0 v1 v2) (dRaw v0 v1 v2 d0 d1 d2) (rawNormal d0 d1 d2)
  obtain ⟨wx, wy, wz⟩ := hd_quad3 (v0 - p) (d0 - dp) 0
  have hE := hd_dot wx wy wz nx ny nz
  have hN := hd_dot nx ny nz nx ny nz
  have z0 : ∀ a b c : V3 ℝ, a + (0 : ℝ) • b + (0 : ℝ) ^ 2 • c = a := by intro a b c; ext <;> simp
  have hS := hN.sqrt (by rw [z0]; exact hn2)
  have hq := hE.div (hS.add_const (kEps : ℝ)) (by
    rw [z0]
    have : 0 < Real.sqrt (V3.dot (rawNormal v0 v1 v2) (rawNormal v0 v1 v2)) := h
    exact (by positivity : (0 : ℝ) < _ + kEps).ne')
  refine hd_congr hq ?_ ?_
  · intro t
    have e1 : line3 v0 d0 t - line3 p dp t = v0 - p + t • (d0 - dp) + t ^ 2 • (0 : V3 ℝ) := by
      ext <;> simp [line3] <;> ring
    simp only [planeT, triNormal, V3.dot_smul, e1, rawNormal_line, Rot.norm, V3.normSq, Pi.div_apply]
    rw [div_eq_inv_mul]
  · simp only [z0]
    have hs : Real.sqrt (V3.dot (rawNormal v0 v1 v2) (rawNormal v0 v1 v2)) = Rot.norm (rawNormal v0 v1 v2) := rfl
    rw [hs, V3.dot_comm (dRaw v0 v1 v2 d0 d1 d2) (rawNormal v0 v1 v2)]
    generalize Rot.norm (rawNormal v0 v1 v2) = m at *
    have : m + kEps ≠ 0 := by positivity
    field_simp
    ring

/-- The plane branch is kept in a neighbourhood of strictly interior configurations. -/
theorem usePlane_open {p v0 v1 v2 : V3 ℝ} {minArea : ℝ} (h : kEps < Rot.norm (rawNormal v0 v1 v2))
    (ha : minArea < Rot.norm (rawNormal v0 v1 v2) / 2) (h1 : 0 < (foot p v0 v1 v2).1) (h2 : 0 < (foot p v0 v1 v2).2)
    (h3 : (foot p v0 v1 v2).1 + (foot p v0 v1 v2).2 < 1 + kEps / V3.normSq (rawNormal v0 v1 v2))
    (dp d0 d1 d2 : V3 ℝ) :
    ∀ᶠ t in 𝓝 (0 : ℝ), UsePlane (line3 p dp t) (line3 v0 d0 t) (line3 v1 d1 t) (line3 v2 d2 t) minArea := by
  have hk := kEps_pos (K := ℝ)
  have hm := Rot.norm_mul_self (rawNormal v0 v1 v2)
  have hpos : 0 < Rot.norm (rawNormal v0 v1 v2) := hk.trans h
  have hn2 : V3.normSq (rawNormal v0 v1 v2) ≠ 0 := by rw [← hm]; positivity
  have cN2 : Continuous fun t : ℝ => V3.normSq (rawNormal (line3 v0 d0 t) (line3 v1 d1 t) (line3 v2 d2 t)) := by
    simp only [rawNormal, line3, V3.normSq, V3.dot, V3.cross, V3.sub_x, V3.sub_y, V3.sub_z, V3.add_x, V3.add_y,
      V3.add_z, V3.smul_x, V3.smul_y, V3.smul_z]
    fun_prop
  have cN : Continuous fun t : ℝ => Rot.norm (rawNormal (line3 v0 d0 t) (line3 v1 d1 t) (line3 v2 d2 t)) :=
    Real.continuous_sqrt.comp cN2
  have hz : V3.normSq (rawNormal (line3 v0 d0 0) (line3 v1 d1 0) (line3 v2 d2 0)) ≠ 0 := by
    simpa only [line3_zero] using hn2
  have cf1 : ContinuousAt (fun t : ℝ => (foot (line3 p dp t) (line3 v0 d0 t) (line3 v1 d1 t) (line3 v2 d2 t)).1) 0 := by
    simp only [foot]
    refine ContinuousAt.div (Continuous.continuousAt ?_) cN2.continuousAt hz
    simp only [line3, V3.dot, V3.sub_x, V3.sub_y, V3.sub_z, V3.add_x, V3.add_y, V3.add_z, V3.smul_x, V3.smul_y,
      V3.smul_z]
    fun_prop
  have cf2 : ContinuousAt (fun t : ℝ => (foot (line3 p dp t) (line3 v0 d0 t) (line3 v1 d1 t) (line3 v2 d2 t)).2) 0 := by
    simp only [foot]
    refine ContinuousAt.div (Continuous.continuousAt ?_) cN2.continuousAt hz
    simp only [line3, V3.dot, V3.sub_x, V3.sub_y, V3.sub_z, V3.add_x, V3.add_y, V3.add_z, V3.smul_x, V3.smul_y,
      V3.smul_z]
    fun_prop
  have E1 := cf1.eventually (lt_mem_nhds (a := (0 : ℝ)) (by simpa only [line3_zero] using h1))
  have E2 := cf2.eventually (lt_mem_nhds (a := (0 : ℝ)) (by simpa only [line3_zero] using h2))
  have E3 := (cf1.add cf2).eventually_lt
    ((continuousAt_const (y := (1 : ℝ))).add ((continuousAt_const (y := (kEps : ℝ))).div cN2.continuousAt hz))
    (by simpa only [line3_zero, Pi.add_apply, Pi.div_apply] using h3)
  have E4 := (cN.continuousAt (x := 0)).eventually (lt_mem_nhds (a := (kEps : ℝ)) (by simpa only [line3_zero] using h))
  have E5 := ((cN.div_const 2).continuousAt (x := 0)).eventually (lt_mem_nhds (a := minArea) (by simpa only [line3_zero] using ha))
  filter_upwards [E1, E2, E3, E4, E5] with t a1 a2 a3 a4 a5
  rw [usePlane_iff a4 a5.le]
  exact ⟨a1.le, a2.le, a3.le⟩

/-- **C34 (gradient, triangle in space, foot strictly inside).** The derivative of the forward pass is the
result of the backward pass minus an error term of relative size at most `3e-8 / |n|²`, which does not appear when
only the point moves. -/
theorem pointTri3Backward_deriv {p v0 v1 v2 : V3 ℝ} {minArea : ℝ} (h : kEps < Rot.norm (rawNormal v0 v1 v2))
    (ha : minArea < Rot.norm (rawNormal v0 v1 v2) / 2) (h1 : 0 < (foot p v0 v1 v2).1) (h2 : 0 < (foot p v0 v1 v2).2)
    (h3 : (foot p v0 v1 v2).1 + (foot p v0 v1 v2).2 < 1 + kEps / V3.normSq (rawNormal v0 v1 v2))
    (dp d0 d1 d2 : V3 ℝ) (g : ℝ) :
    HasDerivAt (fun t => g * pointTri3 (line3 p dp t) (line3 v0 d0 t) (line3 v1 d1 t) (line3 v2 d2 t) minArea)
      (V3.dot (pointTri3Backward p v0 v1 v2 g minArea).1 dp + V3.dot (pointTri3Backward p v0 v1 v2 g minArea).2.1 d0
        + V3.dot (pointTri3Backward p v0 v1 v2 g minArea).2.2.1 d1
        + V3.dot (pointTri3Backward p v0 v1 v2 g minArea).2.2.2 d2
        - 2 * g * planeT p v0 v1 v2 ^ 2 / (Rot.norm (rawNormal v0 v1 v2) + kEps) * normErr v0 v1 v2
          * V3.dot (rawNormal v0 v1 v2) (dRaw v0 v1 v2 d0 d1 d2)) 0 := by
  have hk := kEps_pos (K := ℝ)
  have hpos : 0 < Rot.norm (rawNormal v0 v1 v2) := hk.trans h
  have hT := hd_planeT (p := p) hpos dp d0 d1 d2
  have hq := (hT.mul hT).const_mul g
  have hev := usePlane_open h ha h1 h2 h3 dp d0 d1 d2
  have huse : UsePlane p v0 v1 v2 minArea := by
    have := hev.self_of_nhds
    simpa only [line3_zero] using this
  refine HasDerivAt.congr_of_eventuallyEq (hd_congr hq (fun _ => rfl) ?_) ?_
  · simp only [line3_zero, pointTri3Backward, if_pos huse, normErr]
    have hTv : V3.dot (v0 - p) (rawNormal v0 v1 v2)
        = planeT p v0 v1 v2 * (Rot.norm (rawNormal v0 v1 v2) + kEps) := by
      simp only [planeT, triNormal, V3.dot_smul]
      have : Rot.norm (rawNormal v0 v1 v2) + kEps ≠ 0 := by positivity
      field_simp
    have hm := Rot.norm_mul_self (rawNormal v0 v1 v2)
    have hcross : ∀ G : V3 ℝ, V3.dot (crossBackward (v2 - v0) (v1 - v0) G).1 (d2 - d0)
        + V3.dot (crossBackward (v2 - v0) (v1 - v0) G).2 (d1 - d0) = V3.dot G (dRaw v0 v1 v2 d0 d1 d2) := by
      intro G
      simp only [crossBackward, dRaw, V3.dot, V3.cross, V3.sub_x, V3.sub_y, V3.sub_z, V3.add_x, V3.add_y, V3.add_z]
      ring
    have hnb : ∀ G : V3 ℝ, V3.dot (normalizeBackward (rawNormal v0 v1 v2) G) (dRaw v0 v1 v2 d0 d1 d2)
        = (V3.dot G (dRaw v0 v1 v2 d0 d1 d2) - V3.dot G (rawNormal v0 v1 v2)
          * V3.dot (rawNormal v0 v1 v2) (dRaw v0 v1 v2 d0 d1 d2) / (Rot.norm (rawNormal v0 v1 v2) + kEps) ^ 2)
          / (Rot.norm (rawNormal v0 v1 v2) + kEps) := by
      intro G
      simp only [normalizeBackward]
      generalize Rot.norm (rawNormal v0 v1 v2) = m at *
      have : m + kEps ≠ 0 := by positivity
      simp only [V3.dot, V3.smul_x, V3.smul_y, V3.smul_z]
      field_simp
      ring
    have hsum : ∀ (A gp : V3 ℝ) (c : V3 ℝ × V3 ℝ), V3.dot gp dp + V3.dot (A - (c.1 + c.2)) d0 + V3.dot c.2 d1
        + V3.dot c.1 d2 = V3.dot gp dp + V3.dot A d0 + (V3.dot c.1 (d2 - d0) + V3.dot c.2 (d1 - d0)) := by
      intro A gp c
      simp only [V3.dot, V3.sub_x, V3.sub_y, V3.sub_z, V3.add_x, V3.add_y, V3.add_z]; ring
    rw [hsum, hcross, hnb, hTv]
    simp only [triNormal, V3.smul_dot, V3.add_dot, hTv]
    have hnn : V3.dot (rawNormal v0 v1 v2) (rawNormal v0 v1 v2)
        = Rot.norm (rawNormal v0 v1 v2) * Rot.norm (rawNormal v0 v1 v2) := hm.symm
    have hdd : V3.dot (d0 - dp) (rawNormal v0 v1 v2) = V3.dot (rawNormal v0 v1 v2) d0 - V3.dot (rawNormal v0 v1 v2) dp := by
      simp only [V3.dot, V3.sub_x, V3.sub_y, V3.sub_z]; ring
    rw [hnn, hdd]
    generalize planeT p v0 v1 v2 = T at *
    generalize V3.dot (rawNormal v0 v1 v2) (dRaw v0 v1 v2 d0 d1 d2) = nn' at *
    generalize V3.dot (v0 - p) (dRaw v0 v1 v2 d0 d1 d2) = wn' at *
    generalize V3.dot (rawNormal v0 v1 v2) d0 = n0 at *
    generalize V3.dot (rawNormal v0 v1 v2) dp = np at *
    generalize Rot.norm (rawNormal v0 v1 v2) = m at *
    have : m + kEps ≠ 0 := by positivity
    field_simp
    ring
  · filter_upwards [hev] with t ht
    simp only [pointTri3, if_pos ht, Pi.mul_apply]

/-! ### Examples -/

/-- Distances to the segment from (0,0) to (4,0): beside, before, behind. -/
example : pointLine (⟨1, 2⟩ : V2 ℚ) ⟨0, 0⟩ ⟨4, 0⟩ = 4 ∧ pointLine (⟨-3, 4⟩ : V2 ℚ) ⟨0, 0⟩ ⟨4, 0⟩ = 25
    ∧ pointLine (⟨5, 1⟩ : V2 ℚ) ⟨0, 0⟩ ⟨4, 0⟩ = 2 := by decide +kernel

example : pointLineBackward (⟨1, 2⟩ : V2 ℚ) ⟨0, 0⟩ ⟨4, 0⟩ 1 = (⟨0, 4⟩, ⟨0, -3⟩, ⟨0, -1⟩) := by decide +kernel

example : pointTri (⟨1, 1⟩ : V2 ℚ) ⟨0, 0⟩ ⟨4, 0⟩ ⟨0, 3⟩ = 1 := by decide +kernel

/-- A segment in space, and the even split for a degenerate one. -/
example : pointLine3 (⟨1, 2, 2⟩ : V3 ℚ) ⟨0, 0, 0⟩ ⟨4, 0, 0⟩ = 8
    ∧ pointLine3Backward (⟨1, 2, 2⟩ : V3 ℚ) ⟨0, 0, 0⟩ ⟨4, 0, 0⟩ 1 = (⟨0, 4, 4⟩, ⟨0, -3, -3⟩, ⟨0, -1, -1⟩)
    ∧ pointLine3Backward (⟨1, 2, 2⟩ : V3 ℚ) ⟨0, 0, 0⟩ ⟨0, 0, 0⟩ 1 = (⟨2, 4, 4⟩, ⟨-1, -2, -2⟩, ⟨-1, -2, -2⟩) := by
  decide +kernel

theorem exRaw : Rot.norm (rawNormal ⟨0, 0, 0⟩ ⟨4, 0, 0⟩ (⟨0, 3, 0⟩ : V3 ℝ)) = 12 := by
  unfold Rot.norm
  rw [show V3.normSq (rawNormal ⟨0, 0, 0⟩ ⟨4, 0, 0⟩ (⟨0, 3, 0⟩ : V3 ℝ)) = 12 ^ 2 by
    simp [rawNormal, V3.normSq, V3.dot, V3.cross]; norm_num]
  exact Real.sqrt_sq (by norm_num)

theorem exFat : Fat ⟨0, 0, 0⟩ ⟨4, 0, 0⟩ (⟨0, 3, 0⟩ : V3 ℝ) (5 / 10 ^ 3) := by
  refine ⟨?_, ?_, ?_, ?_, ?_⟩
  · simp [V3.dot, kEps]; norm_num
  · simp [V3.dot, kEps]; norm_num
  · simp [V3.dot, kEps]; norm_num
  · rw [exRaw]; simp [kEps]; norm_num
  · rw [exRaw]; norm_num

theorem exFoot (x y z : ℝ) : foot ⟨x, y, z⟩ ⟨0, 0, 0⟩ ⟨4, 0, 0⟩ (⟨0, 3, 0⟩ : V3 ℝ) = (x / 4, y / 3) := by
  simp only [foot, Prod.mk.injEq]
  have h : V3.normSq (rawNormal ⟨0, 0, 0⟩ ⟨4, 0, 0⟩ (⟨0, 3, 0⟩ : V3 ℝ)) = 144 := by
    simp [rawNormal, V3.normSq, V3.dot, V3.cross]; norm_num
  rw [h]
  simp only [V3.dot, V3.sub_x, V3.sub_y, V3.sub_z]
  constructor <;> ring

/-- A point above a right triangle: height 5, minimal distance 25, returned value a bit smaller. -/
example : ∃ q, InTri3 q ⟨0, 0, 0⟩ ⟨4, 0, 0⟩ ⟨0, 3, 0⟩
    ∧ pointTri3 ⟨1, 1, 5⟩ ⟨0, 0, 0⟩ ⟨4, 0, 0⟩ ⟨0, 3, 0⟩ (5 / 10 ^ 3)
      = shrink ⟨0, 0, 0⟩ ⟨4, 0, 0⟩ ⟨0, 3, 0⟩ ^ 2 * V3.normSq ((⟨1, 1, 5⟩ : V3 ℝ) - q)
    ∧ ∀ q', InTri3 q' ⟨0, 0, 0⟩ ⟨4, 0, 0⟩ ⟨0, 3, 0⟩ → V3.normSq ((⟨1, 1, 5⟩ : V3 ℝ) - q)
      ≤ V3.normSq ((⟨1, 1, 5⟩ : V3 ℝ) - q') := by
  refine pointTri3_inside exFat ⟨1 / 4, 1 / 3, by norm_num, by norm_num, by norm_num, ?_⟩
  rw [exFoot]

/-- A point beyond the hypotenuse. -/
example : ∃ q, InTri3 q ⟨0, 0, 0⟩ ⟨4, 0, 0⟩ ⟨0, 3, 0⟩
    ∧ V3.normSq ((⟨4, 3, 1⟩ : V3 ℝ) - q) = pointTri3 ⟨4, 3, 1⟩ ⟨0, 0, 0⟩ ⟨4, 0, 0⟩ ⟨0, 3, 0⟩ (5 / 10 ^ 3) := by
  refine (pointTri3_outside exFat (Or.inr (Or.inr ?_))).1
  rw [exFoot]
  have h : V3.normSq (rawNormal ⟨0, 0, 0⟩ ⟨4, 0, 0⟩ (⟨0, 3, 0⟩ : V3 ℝ)) = 144 := by
    simp [rawNormal, V3.normSq, V3.dot, V3.cross]; norm_num
  rw [h]
  simp only [kEps]; norm_num

end P3D.Geom
