/-
C34: distances of points to segments and triangles, and their backward passes.
-/
import Verif.GeometryProps
import Verif.AxisAngleProps

set_option linter.unusedSimpArgs false
set_option linter.unusedSectionVars false

namespace P3D.Geom

section field
variable {K : Type*} [Field K] [LinearOrder K] [IsStrictOrderedRing K]

/-- Squared distance of `p` to the point with parameter `s` of the segment. -/
def segDist (p v0 v1 : V2 K) (s : K) : K :=
  V2.dot (p - (v0 + s • (v1 - v0))) (p - (v0 + s • (v1 - v0)))

def segDist3 (p v0 v1 : V3 K) (s : K) : K := V3.normSq (p - (v0 + s • (v1 - v0)))

theorem clamp01_mem (t : K) : 0 ≤ clamp01 t ∧ clamp01 t ≤ 1 := by
  unfold clamp01
  exact ⟨le_min (le_max_right _ _) zero_le_one, min_le_right _ _⟩

/-- A parabola with vertex `t` is minimal over [0, 1] at the clamped vertex. -/
theorem clamp01_min (t : K) {s : K} (h0 : 0 ≤ s) (h1 : s ≤ 1) : (clamp01 t - t) ^ 2 ≤ (s - t) ^ 2 := by
  unfold clamp01
  rcases le_total t 0 with h | h
  · rw [max_eq_right h, min_eq_left zero_le_one]; nlinarith
  · rw [max_eq_left h]
    rcases le_total t 1 with h2 | h2
    · rw [min_eq_left h2]; simp; positivity
    · rw [min_eq_right h2]; nlinarith

theorem segDist_vertex {p v0 v1 : V2 K} (h : V2.dot (v1 - v0) (v1 - v0) ≠ 0) (s s' : K) :
    segDist p v0 v1 s - segDist p v0 v1 s' = V2.dot (v1 - v0) (v1 - v0)
      * ((s - V2.dot (v1 - v0) (p - v0) / V2.dot (v1 - v0) (v1 - v0)) ^ 2
        - (s' - V2.dot (v1 - v0) (p - v0) / V2.dot (v1 - v0) (v1 - v0)) ^ 2) := by
  generalize hl : V2.dot (v1 - v0) (v1 - v0) = l at *
  field_simp
  rw [← hl]
  simp only [segDist, V2.dot, V2.sub_x, V2.sub_y, V2.add_x, V2.add_y, V2.smul_x, V2.smul_y]
  ring

theorem segDist3_vertex {p v0 v1 : V3 K} (h : V3.dot (v1 - v0) (v1 - v0) ≠ 0) (s s' : K) :
    segDist3 p v0 v1 s - segDist3 p v0 v1 s' = V3.dot (v1 - v0) (v1 - v0)
      * ((s - V3.dot (v1 - v0) (p - v0) / V3.dot (v1 - v0) (v1 - v0)) ^ 2
        - (s' - V3.dot (v1 - v0) (p - v0) / V3.dot (v1 - v0) (v1 - v0)) ^ 2) := by
  generalize hl : V3.dot (v1 - v0) (v1 - v0) = l at *
  field_simp
  rw [← hl]
  simp only [segDist3, V3.normSq, V3.dot, V3.sub_x, V3.sub_y, V3.sub_z, V3.add_x, V3.add_y, V3.add_z,
    V3.smul_x, V3.smul_y, V3.smul_z]
  ring

/-- `d` is the minimum of `f` over [0, 1]. -/
def IsSegMin (f : K → K) (d : K) : Prop := (∃ s, 0 ≤ s ∧ s ≤ 1 ∧ f s = d) ∧ ∀ s, 0 ≤ s → s ≤ 1 → d ≤ f s

/-- **C34 (segment, 2D).** For segments longer than 1e-4 the result is the minimum of the squared distance
over all points of the segment. -/
theorem pointLine_min {p v0 v1 : V2 K} (h : kEps < V2.dot (v1 - v0) (v1 - v0)) :
    IsSegMin (segDist p v0 v1) (pointLine p v0 v1) := by
  have hl : 0 < V2.dot (v1 - v0) (v1 - v0) := kEps_pos.trans h
  have he : pointLine p v0 v1 = segDist p v0 v1 (clamp01 (V2.dot (v1 - v0) (p - v0) / V2.dot (v1 - v0) (v1 - v0))) := by
    simp only [pointLine, if_neg h.not_ge]; rfl
  rw [he]
  refine ⟨⟨_, (clamp01_mem _).1, (clamp01_mem _).2, rfl⟩, fun s h0 h1 => ?_⟩
  have := segDist_vertex (p := p) hl.ne' s (clamp01 (V2.dot (v1 - v0) (p - v0) / V2.dot (v1 - v0) (v1 - v0)))
  have h2 := clamp01_min (V2.dot (v1 - v0) (p - v0) / V2.dot (v1 - v0) (v1 - v0)) h0 h1
  have h3 := mul_nonneg hl.le (sub_nonneg.mpr h2)
  linarith

/-- **C34 (segment, 3D).** -/
theorem pointLine3_min {p v0 v1 : V3 K} (h : kEps < V3.dot (v1 - v0) (v1 - v0)) :
    IsSegMin (segDist3 p v0 v1) (pointLine3 p v0 v1) := by
  have hl : 0 < V3.dot (v1 - v0) (v1 - v0) := kEps_pos.trans h
  have he : pointLine3 p v0 v1
      = segDist3 p v0 v1 (clamp01 (V3.dot (v1 - v0) (p - v0) / V3.dot (v1 - v0) (v1 - v0))) := by
    simp only [pointLine3, if_neg h.not_ge]; rfl
  rw [he]
  refine ⟨⟨_, (clamp01_mem _).1, (clamp01_mem _).2, rfl⟩, fun s h0 h1 => ?_⟩
  have := segDist3_vertex (p := p) hl.ne' s (clamp01 (V3.dot (v1 - v0) (p - v0) / V3.dot (v1 - v0) (v1 - v0)))
  have h2 := clamp01_min (V3.dot (v1 - v0) (p - v0) / V3.dot (v1 - v0) (v1 - v0)) h0 h1
  have h3 := mul_nonneg hl.le (sub_nonneg.mpr h2)
  linarith

/-- **C34 (short segments).** For segments of length at most 1e-4 the squared distance to `v1` is returned. -/
theorem pointLine_short {p v0 v1 : V2 K} (h : V2.dot (v1 - v0) (v1 - v0) ≤ kEps) :
    pointLine p v0 v1 = V2.dot (p - v1) (p - v1) := by simp only [pointLine, if_pos h]

theorem pointLine3_short {p v0 v1 : V3 K} (h : V3.dot (v1 - v0) (v1 - v0) ≤ kEps) :
    pointLine3 p v0 v1 = V3.normSq (p - v1) := by simp only [pointLine3, if_pos h]; rfl

/-- **C34 (triangle boundary).** The 2D triangle distance is attained on one of the three sides and is at most
the squared distance to every point of every side, when the sides are longer than 1e-4. -/
theorem pointTri_min {p v0 v1 v2 : V2 K} (h01 : kEps < V2.dot (v1 - v0) (v1 - v0))
    (h02 : kEps < V2.dot (v2 - v0) (v2 - v0)) (h12 : kEps < V2.dot (v2 - v1) (v2 - v1)) :
    (∃ s, 0 ≤ s ∧ s ≤ 1 ∧ (segDist p v0 v1 s = pointTri p v0 v1 v2 ∨ segDist p v0 v2 s = pointTri p v0 v1 v2
      ∨ segDist p v1 v2 s = pointTri p v0 v1 v2))
    ∧ ∀ s, 0 ≤ s → s ≤ 1 → pointTri p v0 v1 v2 ≤ segDist p v0 v1 s ∧ pointTri p v0 v1 v2 ≤ segDist p v0 v2 s
      ∧ pointTri p v0 v1 v2 ≤ segDist p v1 v2 s := by
  obtain ⟨⟨s0, a0, b0, e0⟩, m0⟩ := pointLine_min (p := p) h01
  obtain ⟨⟨s1, a1, b1, e1⟩, m1⟩ := pointLine_min (p := p) h02
  obtain ⟨⟨s2, a2, b2, e2⟩, m2⟩ := pointLine_min (p := p) h12
  constructor
  · unfold pointTri
    rcases min_choice (min (pointLine p v0 v1) (pointLine p v0 v2)) (pointLine p v1 v2) with h | h
    · rw [h]
      rcases min_choice (pointLine p v0 v1) (pointLine p v0 v2) with h' | h'
      · exact ⟨s0, a0, b0, Or.inl (by rw [h', e0])⟩
      · exact ⟨s1, a1, b1, Or.inr (Or.inl (by rw [h', e1]))⟩
    · exact ⟨s2, a2, b2, Or.inr (Or.inr (by rw [h, e2]))⟩
  · intro s h0 h1
    unfold pointTri
    exact ⟨(min_le_left _ _).trans ((min_le_left _ _).trans (m0 s h0 h1)),
      (min_le_left _ _).trans ((min_le_right _ _).trans (m1 s h0 h1)), (min_le_right _ _).trans (m2 s h0 h1)⟩

/-! ### The closest point of a triangle in space -/

/-- Point of the plane of the triangle with barycentric coordinates `(1 - b - c, b, c)`. -/
def triPoint (v0 v1 v2 : V3 K) (b c : K) : V3 K := v0 + b • (v1 - v0) + c • (v2 - v0)

/-- Walking from a point of the triangle towards a point of the plane outside it, one crosses a side. -/
theorem exit_point {b c b' c' : K} (hb : 0 ≤ b) (hc : 0 ≤ c) (hs : b + c ≤ 1)
    (ho : b' < 0 ∨ c' < 0 ∨ 1 < b' + c') :
    ∃ s, 0 ≤ s ∧ s ≤ 1 ∧
      (let x := b + s * (b' - b); let y := c + s * (c' - c);
        0 ≤ x ∧ 0 ≤ y ∧ x + y ≤ 1 ∧ (x = 0 ∨ y = 0 ∨ x + y = 1)) := by
  -- the largest `s ≤ 1` for which all three coordinates stay non-negative
  have step : ∀ u u' : K, 0 ≤ u → ∃ s, 0 ≤ s ∧ s ≤ 1 ∧ (∀ r, 0 ≤ r → r ≤ s → 0 ≤ u + r * (u' - u))
      ∧ (u' < 0 → u + s * (u' - u) = 0) ∧ (0 ≤ u' → s = 1) := by
    intro u u' hu
    by_cases h : u' < 0
    · have hd : 0 < u - u' := by linarith
      have he : u + u / (u - u') * (u' - u) = 0 := by field_simp; ring
      refine ⟨u / (u - u'), div_nonneg hu hd.le, by rw [div_le_one hd]; linarith, fun r h0 h1 => ?_, fun _ => he,
        fun h' => absurd h (not_lt.mpr h')⟩
      have : r * (u - u') ≤ u / (u - u') * (u - u') := mul_le_mul_of_nonneg_right h1 hd.le
      linarith
    · refine ⟨1, zero_le_one, le_rfl, fun r h0 h1 => ?_, fun h' => absurd h' h, fun _ => rfl⟩
      have := not_lt.mp h
      nlinarith
  obtain ⟨s1, p1, q1, r1, z1, o1⟩ := step b b' hb
  obtain ⟨s2, p2, q2, r2, z2, o2⟩ := step c c' hc
  obtain ⟨s3, p3, q3, r3, z3, o3⟩ := step (1 - b - c) (1 - b' - c') (by linarith)
  have hm1 : min s1 (min s2 s3) ≤ s1 := min_le_left _ _
  have hm2 : min s1 (min s2 s3) ≤ s2 := (min_le_right _ _).trans (min_le_left _ _)
  have hm3 : min s1 (min s2 s3) ≤ s3 := (min_le_right _ _).trans (min_le_right _ _)
  have hm0 : 0 ≤ min s1 (min s2 s3) := le_min p1 (le_min p2 p3)
  refine ⟨min s1 (min s2 s3), hm0, hm1.trans q1, ?_⟩
  intro x y
  have e3 := r3 _ hm0 hm3
  refine ⟨r1 _ hm0 hm1, r2 _ hm0 hm2, by simp only [x, y]; linarith, ?_⟩
  -- the minimum is one of the crossing parameters
  by_cases g1 : b' < 0
  · by_cases k1 : min s1 (min s2 s3) = s1
    · left; simp only [x]; rw [k1]; exact z1 g1
    · have k : min s1 (min s2 s3) = min s2 s3 := (min_choice _ _).resolve_left k1
      have hlt : min s2 s3 < s1 := by
        rcases lt_or_ge (min s2 s3) s1 with h | h
        · exact h
        · exact absurd (min_eq_left h) k1
      rcases min_choice s2 s3 with h | h
      · have g2 : c' < 0 := by
          by_contra hc'
          rw [h, o2 (not_lt.mp hc')] at hlt; linarith
        right; left; simp only [y]; rw [k, h]; exact z2 g2
      · have g3 : 1 - b' - c' < 0 := by
          by_contra hc'
          rw [h, o3 (not_lt.mp hc')] at hlt; linarith
        right; right
        have := z3 g3
        simp only [x, y]; rw [k, h]; linarith
  · have e1 : s1 = 1 := o1 (not_lt.mp g1)
    have k : min s1 (min s2 s3) = min s2 s3 := min_eq_right (by rw [e1]; exact (min_le_left _ _).trans q2)
    rcases min_choice s2 s3 with h | h
    · by_cases g2 : c' < 0
      · right; left; simp only [y]; rw [k, h]; exact z2 g2
      · have g3 : 1 - b' - c' < 0 := by
          rcases ho with h' | h' | h'
          · exact absurd h' g1
          · exact absurd h' g2
          · linarith
        have e2 : s2 = 1 := o2 (not_lt.mp g2)
        have e3' : s3 = s2 := le_antisymm (by rw [e2]; exact q3) (by rw [← h]; exact min_le_right _ _)
        right; right
        have := z3 g3
        simp only [x, y]; rw [k, h, ← e3']; linarith
    · by_cases g3 : 1 - b' - c' < 0
      · right; right
        have := z3 g3
        simp only [x, y]; rw [k, h]; linarith
      · have e3' : s3 = 1 := o3 (not_lt.mp g3)
        have g2 : c' < 0 := by
          rcases ho with h' | h' | h'
          · exact absurd h' g1
          · exact h'
          · exact absurd (by linarith) g3
        have e2 : s2 = s3 := le_antisymm (by rw [e3']; exact q2) (by rw [← h]; exact min_le_left _ _)
        right; left
        simp only [y]; rw [k, h, ← e2]; exact z2 g2

/-- Pythagoras: distance to points of the plane, when `p - foot` is normal to the plane. -/
theorem tri_pythagoras {p v0 v1 v2 : V3 K} {b' c' : K}
    (h1 : V3.dot (p - triPoint v0 v1 v2 b' c') (v1 - v0) = 0)
    (h2 : V3.dot (p - triPoint v0 v1 v2 b' c') (v2 - v0) = 0) (b c : K) :
    V3.normSq (p - triPoint v0 v1 v2 b c) = V3.normSq (p - triPoint v0 v1 v2 b' c')
      + V3.normSq ((b' - b) • (v1 - v0) + (c' - c) • (v2 - v0)) := by
  have : p - triPoint v0 v1 v2 b c = (p - triPoint v0 v1 v2 b' c')
      + ((b' - b) • (v1 - v0) + (c' - c) • (v2 - v0)) := by
    ext <;> simp [triPoint] <;> ring
  rw [this]
  generalize p - triPoint v0 v1 v2 b' c' = n at *
  generalize v1 - v0 = x at *
  generalize v2 - v0 = y at *
  simp only [V3.normSq, V3.dot, V3.add_x, V3.add_y, V3.add_z, V3.smul_x, V3.smul_y, V3.smul_z] at *
  linear_combination 2 * (b' - b) * h1 + 2 * (c' - c) * h2

/-- If the foot of the perpendicular lies outside the triangle, every point of the triangle is at least as far
away as some point of a side. -/
theorem outside_boundary {p v0 v1 v2 : V3 K} {b' c' : K}
    (h1 : V3.dot (p - triPoint v0 v1 v2 b' c') (v1 - v0) = 0)
    (h2 : V3.dot (p - triPoint v0 v1 v2 b' c') (v2 - v0) = 0) (ho : b' < 0 ∨ c' < 0 ∨ 1 < b' + c')
    {b c : K} (hb : 0 ≤ b) (hc : 0 ≤ c) (hs : b + c ≤ 1) :
    ∃ s, 0 ≤ s ∧ s ≤ 1 ∧ (segDist3 p v0 v1 s ≤ V3.normSq (p - triPoint v0 v1 v2 b c)
      ∨ segDist3 p v0 v2 s ≤ V3.normSq (p - triPoint v0 v1 v2 b c)
      ∨ segDist3 p v1 v2 s ≤ V3.normSq (p - triPoint v0 v1 v2 b c)) := by
  obtain ⟨s, s0, s1, hx, hy, hxy, hz⟩ := exit_point hb hc hs ho
  have hle : V3.normSq (p - triPoint v0 v1 v2 (b + s * (b' - b)) (c + s * (c' - c)))
      ≤ V3.normSq (p - triPoint v0 v1 v2 b c) := by
    rw [tri_pythagoras h1 h2, tri_pythagoras h1 h2 b c]
    have : (b' - (b + s * (b' - b))) • (v1 - v0) + (c' - (c + s * (c' - c))) • (v2 - v0)
        = (1 - s) • ((b' - b) • (v1 - v0) + (c' - c) • (v2 - v0)) := by
      ext <;> simp <;> ring
    rw [this, V3.normSq_smul]
    have hn : 0 ≤ V3.normSq ((b' - b) • (v1 - v0) + (c' - c) • (v2 - v0)) := by
      simp only [V3.normSq, V3.dot]; nlinarith [sq_nonneg ((b' - b) • (v1 - v0) + (c' - c) • (v2 - v0)).x,
        sq_nonneg ((b' - b) • (v1 - v0) + (c' - c) • (v2 - v0)).y,
        sq_nonneg ((b' - b) • (v1 - v0) + (c' - c) • (v2 - v0)).z]
    have : (1 - s) ^ 2 ≤ 1 := by nlinarith
    nlinarith
  generalize b + s * (b' - b) = x at *
  generalize c + s * (c' - c) = y at *
  rcases hz with hz | hz | hz
  · refine ⟨y, hy, by linarith, Or.inr (Or.inl ?_)⟩
    rw [hz] at hle
    rwa [show triPoint v0 v1 v2 0 y = v0 + y • (v2 - v0) by ext <;> simp [triPoint]] at hle
  · refine ⟨x, hx, by linarith, Or.inl ?_⟩
    rw [hz] at hle
    rwa [show triPoint v0 v1 v2 x 0 = v0 + x • (v1 - v0) by ext <;> simp [triPoint]] at hle
  · refine ⟨y, hy, by linarith, Or.inr (Or.inr ?_)⟩
    have : x = 1 - y := by linarith
    rw [this] at hle
    rwa [show triPoint v0 v1 v2 (1 - y) y = v1 + y • (v2 - v1) by ext <;> simp [triPoint] <;> ring] at hle

end field

section real

/-- Squared length of the normal. -/
theorem normSq_raw (v0 v1 v2 : V3 ℝ) : V3.normSq (rawNormal v0 v1 v2)
    = V3.dot (v1 - v0) (v1 - v0) * V3.dot (v2 - v0) (v2 - v0) - V3.dot (v1 - v0) (v2 - v0) * V3.dot (v1 - v0) (v2 - v0) := by
  unfold rawNormal
  generalize v1 - v0 = a
  generalize v2 - v0 = b
  simp only [V3.normSq, V3.dot, V3.cross]; ring

/-- Barycentric coordinates of the foot of the perpendicular from `p` to the plane of the triangle. -/
noncomputable def foot (p v0 v1 v2 : V3 ℝ) : ℝ × ℝ :=
  let x := v1 - v0
  let y := v2 - v0
  let q := p - v0
  let n2 := V3.normSq (rawNormal v0 v1 v2)
  ((V3.dot y y * V3.dot q x - V3.dot x y * V3.dot q y) / n2, (V3.dot x x * V3.dot q y - V3.dot x y * V3.dot q x) / n2)

/-- It is the foot: the difference is perpendicular to the triangle. -/
theorem foot_perp {p v0 v1 v2 : V3 ℝ} (h : V3.normSq (rawNormal v0 v1 v2) ≠ 0) :
    V3.dot (p - triPoint v0 v1 v2 (foot p v0 v1 v2).1 (foot p v0 v1 v2).2) (v1 - v0) = 0
    ∧ V3.dot (p - triPoint v0 v1 v2 (foot p v0 v1 v2).1 (foot p v0 v1 v2).2) (v2 - v0) = 0 := by
  have e : ∀ b c : ℝ, p - triPoint v0 v1 v2 b c = (p - v0) - b • (v1 - v0) - c • (v2 - v0) := by
    intro b c; ext <;> simp [triPoint] <;> ring
  rw [e]
  have hn := normSq_raw v0 v1 v2
  simp only [foot]
  generalize V3.normSq (rawNormal v0 v1 v2) = n2 at *
  generalize p - v0 = q at *
  generalize v1 - v0 = x at *
  generalize v2 - v0 = y at *
  have hd : ∀ a b c d : V3 ℝ, ∀ s t : ℝ, V3.dot (a - s • b - t • c) d
      = V3.dot a d - s * V3.dot b d - t * V3.dot c d := by
    intro a b c d s t
    simp only [V3.dot, V3.sub_x, V3.sub_y, V3.sub_z, V3.smul_x, V3.smul_y, V3.smul_z]; ring
  rw [hd, hd, V3.dot_comm y x]
  generalize V3.dot x x = xx at *
  generalize V3.dot x y = xy at *
  generalize V3.dot y y = yy at *
  constructor <;> field_simp <;> rw [hn] <;> ring

/-- Squared distance to the plane. -/
theorem foot_dist {p v0 v1 v2 : V3 ℝ} (h : V3.normSq (rawNormal v0 v1 v2) ≠ 0) :
    V3.normSq (p - triPoint v0 v1 v2 (foot p v0 v1 v2).1 (foot p v0 v1 v2).2) * V3.normSq (rawNormal v0 v1 v2)
      = V3.dot (v0 - p) (rawNormal v0 v1 v2) ^ 2 := by
  obtain ⟨h1, h2⟩ := foot_perp (p := p) h
  have e : V3.dot (v0 - p) (rawNormal v0 v1 v2)
      = -V3.dot (p - triPoint v0 v1 v2 (foot p v0 v1 v2).1 (foot p v0 v1 v2).2) (rawNormal v0 v1 v2) := by
    simp only [triPoint, rawNormal, V3.dot, V3.cross, V3.sub_x, V3.sub_y, V3.sub_z, V3.add_x, V3.add_y, V3.add_z,
      V3.smul_x, V3.smul_y, V3.smul_z]; ring
  rw [e]
  generalize p - triPoint v0 v1 v2 (foot p v0 v1 v2).1 (foot p v0 v1 v2).2 = w at *
  unfold rawNormal at *
  generalize v1 - v0 = x at *
  generalize v2 - v0 = y at *
  -- w is perpendicular to x and y, so w × (y × x) = 0
  have hc : V3.cross w (V3.cross y x) = 0 := by
    have : V3.cross w (V3.cross y x) = (V3.dot w x) • y - (V3.dot w y) • x := by
      ext <;> simp [V3.cross, V3.dot] <;> ring
    rw [this, h1, h2]; ext <;> simp
  have hl : V3.normSq (V3.cross w (V3.cross y x)) = V3.normSq w * V3.normSq (V3.cross y x)
      - V3.dot w (V3.cross y x) ^ 2 := by
    generalize V3.cross y x = m
    simp only [V3.normSq, V3.dot, V3.cross]; ring
  rw [hc] at hl
  simp [V3.normSq, V3.dot] at hl ⊢
  linarith

/-- The shrinking factor caused by `vEpsilon`. -/
noncomputable def shrink (v0 v1 v2 : V3 ℝ) : ℝ :=
  Rot.norm (rawNormal v0 v1 v2) / (Rot.norm (rawNormal v0 v1 v2) + kEps)

theorem planeT_sq {p v0 v1 v2 : V3 ℝ} (h : kEps < Rot.norm (rawNormal v0 v1 v2)) :
    planeT p v0 v1 v2 * planeT p v0 v1 v2 = shrink v0 v1 v2 ^ 2
      * V3.normSq (p - triPoint v0 v1 v2 (foot p v0 v1 v2).1 (foot p v0 v1 v2).2) := by
  have hk := kEps_pos (K := ℝ)
  have hm := Rot.norm_mul_self (rawNormal v0 v1 v2)
  have hpos : 0 < Rot.norm (rawNormal v0 v1 v2) := hk.trans h
  have hn2 : V3.normSq (rawNormal v0 v1 v2) ≠ 0 := by rw [← hm]; positivity
  have hd := foot_dist (p := p) hn2
  simp only [planeT, triNormal, shrink]
  rw [V3.dot_smul, ← hm] at *
  generalize V3.normSq (p - triPoint v0 v1 v2 (foot p v0 v1 v2).1 (foot p v0 v1 v2).2) = D at *
  generalize V3.dot (v0 - p) (rawNormal v0 v1 v2) = e at *
  generalize Rot.norm (rawNormal v0 v1 v2) = m at *
  have : m + kEps ≠ 0 := by positivity
  field_simp
  linarith

/-- The inside test in terms of the foot: the regularized denominator only widens the third side. -/
theorem usePlane_iff {p v0 v1 v2 : V3 ℝ} {minArea : ℝ} (h : kEps < Rot.norm (rawNormal v0 v1 v2))
    (ha : minArea ≤ Rot.norm (rawNormal v0 v1 v2) / 2) :
    UsePlane p v0 v1 v2 minArea ↔ 0 ≤ (foot p v0 v1 v2).1 ∧ 0 ≤ (foot p v0 v1 v2).2
      ∧ (foot p v0 v1 v2).1 + (foot p v0 v1 v2).2 ≤ 1 + kEps / V3.normSq (rawNormal v0 v1 v2) := by
  have hk := kEps_pos (K := ℝ)
  have hm := Rot.norm_mul_self (rawNormal v0 v1 v2)
  have hpos : 0 < Rot.norm (rawNormal v0 v1 v2) := hk.trans h
  have hn2 : 0 < V3.normSq (rawNormal v0 v1 v2) := by rw [← hm]; positivity
  have harea : area3 v0 v1 v2 = Rot.norm (rawNormal v0 v1 v2) / 2 := by
    unfold area3 Rot.norm
    congr 2
    simp only [rawNormal, V3.normSq, V3.dot, V3.cross]; ring
  have hb : bary3 (p + planeT p v0 v1 v2 • triNormal v0 v1 v2) v0 v1 v2
      = (let f := foot p v0 v1 v2
         let r := V3.normSq (rawNormal v0 v1 v2) / (V3.normSq (rawNormal v0 v1 v2) + kEps)
         ⟨1 - f.1 * r - f.2 * r, f.1 * r, f.2 * r⟩) := by
    have e1 : V3.dot (p + planeT p v0 v1 v2 • triNormal v0 v1 v2 - v0) (v1 - v0) = V3.dot (p - v0) (v1 - v0) := by
      simp only [triNormal, rawNormal]
      generalize planeT p v0 v1 v2 = t
      generalize (Rot.norm (V3.cross (v2 - v0) (v1 - v0)) + kEps)⁻¹ = s
      simp only [V3.dot, V3.cross, V3.sub_x, V3.sub_y, V3.sub_z, V3.add_x, V3.add_y, V3.add_z, V3.smul_x,
        V3.smul_y, V3.smul_z]; ring
    have e2 : V3.dot (p + planeT p v0 v1 v2 • triNormal v0 v1 v2 - v0) (v2 - v0) = V3.dot (p - v0) (v2 - v0) := by
      simp only [triNormal, rawNormal]
      generalize planeT p v0 v1 v2 = t
      generalize (Rot.norm (V3.cross (v2 - v0) (v1 - v0)) + kEps)⁻¹ = s
      simp only [V3.dot, V3.cross, V3.sub_x, V3.sub_y, V3.sub_z, V3.add_x, V3.add_y, V3.add_z, V3.smul_x,
        V3.smul_y, V3.smul_z]; ring
    simp only [bary3, e1, e2, foot, ← normSq_raw]
    have : V3.normSq (rawNormal v0 v1 v2) + kEps ≠ 0 := by positivity
    ext <;> simp only <;> field_simp
  unfold UsePlane InsideTri
  rw [hb, harea]
  simp only [not_lt]
  generalize foot p v0 v1 v2 = f at *
  generalize V3.normSq (rawNormal v0 v1 v2) = N at *
  have hr : 0 < N / (N + kEps) := by positivity
  have hden : 0 < N + kEps := by positivity
  have key : (0 ≤ 1 - f.1 * (N / (N + kEps)) - f.2 * (N / (N + kEps))) ↔ f.1 + f.2 ≤ 1 + kEps / N := by
    have : 1 + kEps / N = (N / (N + kEps))⁻¹ := by field_simp
    rw [this, ← one_div, le_div_iff₀ hr]
    constructor <;> intro h <;> linarith
  constructor
  · rintro ⟨⟨-, ⟨h0, -⟩, ⟨h1, -⟩, ⟨h2, -⟩⟩, -⟩
    exact ⟨nonneg_of_mul_nonneg_left h1 hr, nonneg_of_mul_nonneg_left h2 hr, key.mp h0⟩
  · rintro ⟨h1, h2, h3⟩
    have h0 := key.mpr h3
    have m1 := mul_nonneg h1 hr.le
    have m2 := mul_nonneg h2 hr.le
    exact ⟨⟨ha, ⟨h0, by linarith⟩, ⟨m1, by linarith⟩, ⟨m2, by linarith⟩⟩, h⟩

/-- The fall-back value is the smallest of the three side distances. -/
theorem pointTri3_else {p v0 v1 v2 : V3 ℝ} {minArea : ℝ} (h : ¬ UsePlane p v0 v1 v2 minArea) :
    pointTri3 p v0 v1 v2 minArea = min (min (pointLine3 p v0 v1) (pointLine3 p v0 v2)) (pointLine3 p v1 v2) := by
  simp only [pointTri3, if_neg h]
  generalize pointLine3 p v0 v1 = a
  generalize pointLine3 p v0 v2 = b
  generalize pointLine3 p v1 v2 = c
  have e : (if a > b then b else a) = min a b := by
    split_ifs with h
    · rw [min_eq_right h.le]
    · rw [min_eq_left (not_lt.mp h)]
  rw [e]
  split_ifs with h
  · rw [min_eq_right h.le]
  · rw [min_eq_left (not_lt.mp h)]

/-- The filled triangle. -/
def InTri3 (q v0 v1 v2 : V3 ℝ) : Prop := ∃ b c : ℝ, 0 ≤ b ∧ 0 ≤ c ∧ b + c ≤ 1 ∧ q = triPoint v0 v1 v2 b c

/-- Triangles on which no fall-back is used: long sides and large area. -/
structure Fat (v0 v1 v2 : V3 ℝ) (minArea : ℝ) : Prop where
  side01 : kEps < V3.dot (v1 - v0) (v1 - v0)
  side02 : kEps < V3.dot (v2 - v0) (v2 - v0)
  side12 : kEps < V3.dot (v2 - v1) (v2 - v1)
  norm : kEps < Rot.norm (rawNormal v0 v1 v2)
  area : minArea ≤ Rot.norm (rawNormal v0 v1 v2) / 2

theorem segPoint_mem (v0 v1 v2 : V3 ℝ) {s : ℝ} (h0 : 0 ≤ s) (h1 : s ≤ 1) :
    InTri3 (v0 + s • (v1 - v0)) v0 v1 v2 ∧ InTri3 (v0 + s • (v2 - v0)) v0 v1 v2
      ∧ InTri3 (v1 + s • (v2 - v1)) v0 v1 v2 := by
  refine ⟨⟨s, 0, h0, le_rfl, by linarith, ?_⟩, ⟨0, s, le_rfl, h0, by linarith, ?_⟩,
    ⟨1 - s, s, by linarith, h0, by linarith, ?_⟩⟩
  · ext <;> simp [triPoint]
  · ext <;> simp [triPoint]
  · ext <;> simp [triPoint] <;> ring

/-- **C34 (triangle in space, foot inside).** The result is the minimal squared distance, times the square of
`|n| / (|n| + 1e-8)`. -/
theorem pointTri3_inside {p v0 v1 v2 : V3 ℝ} {minArea : ℝ} (hf : Fat v0 v1 v2 minArea)
    (hi : InTri3 (triPoint v0 v1 v2 (foot p v0 v1 v2).1 (foot p v0 v1 v2).2) v0 v1 v2) :
    ∃ q, InTri3 q v0 v1 v2 ∧ pointTri3 p v0 v1 v2 minArea = shrink v0 v1 v2 ^ 2 * V3.normSq (p - q)
      ∧ ∀ q', InTri3 q' v0 v1 v2 → V3.normSq (p - q) ≤ V3.normSq (p - q') := by
  have hk := kEps_pos (K := ℝ)
  have hm := Rot.norm_mul_self (rawNormal v0 v1 v2)
  have hpos : 0 < Rot.norm (rawNormal v0 v1 v2) := hk.trans hf.norm
  have hn2 : 0 < V3.normSq (rawNormal v0 v1 v2) := by rw [← hm]; positivity
  obtain ⟨p1, p2⟩ := foot_perp (p := p) hn2.ne'
  have hmin : ∀ q', InTri3 q' v0 v1 v2 → V3.normSq (p - triPoint v0 v1 v2 (foot p v0 v1 v2).1 (foot p v0 v1 v2).2)
      ≤ V3.normSq (p - q') := by
    rintro q' ⟨b, c, -, -, -, rfl⟩
    rw [tri_pythagoras p1 p2 b c]
    linarith [Rot.normSq_nonneg' (((foot p v0 v1 v2).1 - b) • (v1 - v0) + ((foot p v0 v1 v2).2 - c) • (v2 - v0))]
  refine ⟨_, hi, ?_, hmin⟩
  -- the coordinates of the foot are unique
  have hu : 0 ≤ (foot p v0 v1 v2).1 ∧ 0 ≤ (foot p v0 v1 v2).2
      ∧ (foot p v0 v1 v2).1 + (foot p v0 v1 v2).2 ≤ 1 := by
    obtain ⟨b, c, hb, hc, hs, e⟩ := hi
    have huniq : ∀ b' c' : ℝ, triPoint v0 v1 v2 b' c' = triPoint v0 v1 v2 b c → b' = b ∧ c' = c := by
      intro b' c' e
      have ev : (b' - b) • (v1 - v0) + (c' - c) • (v2 - v0) = 0 := by
        have : (b' - b) • (v1 - v0) + (c' - c) • (v2 - v0) = triPoint v0 v1 v2 b' c' - triPoint v0 v1 v2 b c := by
          ext <;> simp [triPoint] <;> ring
        rw [this, e, sub_self]
      have hN := normSq_raw v0 v1 v2
      have d1 : V3.dot ((b' - b) • (v1 - v0) + (c' - c) • (v2 - v0)) (v1 - v0) = 0 := by rw [ev]; simp [V3.dot]
      have d2 : V3.dot ((b' - b) • (v1 - v0) + (c' - c) • (v2 - v0)) (v2 - v0) = 0 := by rw [ev]; simp [V3.dot]
      rw [V3.add_dot, V3.smul_dot, V3.smul_dot] at d1 d2
      rw [V3.dot_comm (v2 - v0) (v1 - v0)] at d1
      generalize V3.dot (v1 - v0) (v1 - v0) = xx at *
      generalize V3.dot (v1 - v0) (v2 - v0) = xy at *
      generalize V3.dot (v2 - v0) (v2 - v0) = yy at *
      have z1 : (b' - b) * V3.normSq (rawNormal v0 v1 v2) = 0 := by rw [hN]; linear_combination yy * d1 - xy * d2
      have z2 : (c' - c) * V3.normSq (rawNormal v0 v1 v2) = 0 := by rw [hN]; linear_combination xx * d2 - xy * d1
      exact ⟨by linarith [(mul_eq_zero.mp z1).resolve_right hn2.ne'],
        by linarith [(mul_eq_zero.mp z2).resolve_right hn2.ne']⟩
    obtain ⟨e1, e2⟩ := huniq _ _ e
    rw [e1, e2]; exact ⟨hb, hc, hs⟩
  have huse : UsePlane p v0 v1 v2 minArea := by
    rw [usePlane_iff hf.norm hf.area]
    refine ⟨hu.1, hu.2.1, ?_⟩
    have : 0 < kEps / V3.normSq (rawNormal v0 v1 v2) := by positivity
    linarith
  simp only [pointTri3, if_pos huse]
  exact planeT_sq hf.norm

/-- **C34 (triangle in space, foot outside).** If the foot is outside by more than the relative margin 1e-8 / |n|²
over the third side, the result is exactly the minimal squared distance over the filled triangle. -/
theorem pointTri3_outside {p v0 v1 v2 : V3 ℝ} {minArea : ℝ} (hf : Fat v0 v1 v2 minArea)
    (ho : (foot p v0 v1 v2).1 < 0 ∨ (foot p v0 v1 v2).2 < 0
      ∨ 1 + kEps / V3.normSq (rawNormal v0 v1 v2) < (foot p v0 v1 v2).1 + (foot p v0 v1 v2).2) :
    (∃ q, InTri3 q v0 v1 v2 ∧ V3.normSq (p - q) = pointTri3 p v0 v1 v2 minArea)
      ∧ ∀ q, InTri3 q v0 v1 v2 → pointTri3 p v0 v1 v2 minArea ≤ V3.normSq (p - q) := by
  have hk := kEps_pos (K := ℝ)
  have hm := Rot.norm_mul_self (rawNormal v0 v1 v2)
  have hpos : 0 < Rot.norm (rawNormal v0 v1 v2) := hk.trans hf.norm
  have hn2 : 0 < V3.normSq (rawNormal v0 v1 v2) := by rw [← hm]; positivity
  have hpk : 0 < kEps / V3.normSq (rawNormal v0 v1 v2) := by positivity
  have hno : ¬ UsePlane p v0 v1 v2 minArea := by
    rw [usePlane_iff hf.norm hf.area]
    rintro ⟨h1, h2, h3⟩
    rcases ho with h | h | h <;> linarith
  have ho' : (foot p v0 v1 v2).1 < 0 ∨ (foot p v0 v1 v2).2 < 0
      ∨ 1 < (foot p v0 v1 v2).1 + (foot p v0 v1 v2).2 := by
    rcases ho with h | h | h
    · exact Or.inl h
    · exact Or.inr (Or.inl h)
    · exact Or.inr (Or.inr (by linarith))
  obtain ⟨p1, p2⟩ := foot_perp (p := p) hn2.ne'
  obtain ⟨⟨s0, a0, b0, e0⟩, m0⟩ := pointLine3_min (p := p) hf.side01
  obtain ⟨⟨s1, a1, b1, e1⟩, m1⟩ := pointLine3_min (p := p) hf.side02
  obtain ⟨⟨s2, a2, b2, e2⟩, m2⟩ := pointLine3_min (p := p) hf.side12
  rw [pointTri3_else hno]
  constructor
  · rcases min_choice (min (pointLine3 p v0 v1) (pointLine3 p v0 v2)) (pointLine3 p v1 v2) with h | h
    · rw [h]
      rcases min_choice (pointLine3 p v0 v1) (pointLine3 p v0 v2) with h' | h'
      · exact ⟨_, (segPoint_mem v0 v1 v2 a0 b0).1, by rw [h', ← e0]; rfl⟩
      · exact ⟨_, (segPoint_mem v0 v1 v2 a1 b1).2.1, by rw [h', ← e1]; rfl⟩
    · exact ⟨_, (segPoint_mem v0 v1 v2 a2 b2).2.2, by rw [h, ← e2]; rfl⟩
  · rintro q ⟨b, c, hb, hc, hs, rfl⟩
    obtain ⟨s, h0, h1, hle⟩ := outside_boundary p1 p2 ho' hb hc hs
    rcases hle with h | h | h
    · exact ((min_le_left _ _).trans ((min_le_left _ _).trans (m0 s h0 h1))).trans h
    · exact ((min_le_left _ _).trans ((min_le_right _ _).trans (m1 s h0 h1))).trans h
    · exact ((min_le_right _ _).trans (m2 s h0 h1)).trans h

/-- **C34 (always).** For every fat triangle and point, the result is at most the squared distance to every
point of the filled triangle, and at least the shrunken squared distance to its plane. -/
theorem pointTri3_bounds {p v0 v1 v2 : V3 ℝ} {minArea : ℝ} (hf : Fat v0 v1 v2 minArea) :
    (∀ q, InTri3 q v0 v1 v2 → pointTri3 p v0 v1 v2 minArea ≤ V3.normSq (p - q))
    ∧ shrink v0 v1 v2 ^ 2 * V3.normSq (p - triPoint v0 v1 v2 (foot p v0 v1 v2).1 (foot p v0 v1 v2).2)
        ≤ pointTri3 p v0 v1 v2 minArea := by
  have hk := kEps_pos (K := ℝ)
  have hm := Rot.norm_mul_self (rawNormal v0 v1 v2)
  have hpos : 0 < Rot.norm (rawNormal v0 v1 v2) := hk.trans hf.norm
  have hn2 : 0 < V3.normSq (rawNormal v0 v1 v2) := by rw [← hm]; positivity
  obtain ⟨p1, p2⟩ := foot_perp (p := p) hn2.ne'
  have hsh : shrink v0 v1 v2 ^ 2 ≤ 1 := by
    have h0 : 0 ≤ shrink v0 v1 v2 := by unfold shrink; positivity
    have h1 : shrink v0 v1 v2 ≤ 1 := by unfold shrink; rw [div_le_one (by positivity)]; linarith
    nlinarith
  have hpl : ∀ b c : ℝ, shrink v0 v1 v2 ^ 2 * V3.normSq (p - triPoint v0 v1 v2 (foot p v0 v1 v2).1 (foot p v0 v1 v2).2)
      ≤ V3.normSq (p - triPoint v0 v1 v2 b c) := by
    intro b c
    rw [tri_pythagoras p1 p2 b c]
    have := Rot.normSq_nonneg' (((foot p v0 v1 v2).1 - b) • (v1 - v0) + ((foot p v0 v1 v2).2 - c) • (v2 - v0))
    have h2 := Rot.normSq_nonneg' (p - triPoint v0 v1 v2 (foot p v0 v1 v2).1 (foot p v0 v1 v2).2)
    nlinarith
  by_cases hu : UsePlane p v0 v1 v2 minArea
  · have e : pointTri3 p v0 v1 v2 minArea = shrink v0 v1 v2 ^ 2
        * V3.normSq (p - triPoint v0 v1 v2 (foot p v0 v1 v2).1 (foot p v0 v1 v2).2) := by
      simp only [pointTri3, if_pos hu]; exact planeT_sq hf.norm
    refine ⟨?_, e.ge⟩
    rintro q ⟨b, c, -, -, -, rfl⟩
    rw [e]; exact hpl b c
  · have ho : (foot p v0 v1 v2).1 < 0 ∨ (foot p v0 v1 v2).2 < 0
        ∨ 1 + kEps / V3.normSq (rawNormal v0 v1 v2) < (foot p v0 v1 v2).1 + (foot p v0 v1 v2).2 := by
      rw [usePlane_iff hf.norm hf.area] at hu
      by_contra hc
      push Not at hc
      exact hu ⟨hc.1, hc.2.1, hc.2.2⟩
    obtain ⟨⟨q, ⟨b, c, -, -, -, rfl⟩, hq⟩, hle⟩ := pointTri3_outside hf ho
    exact ⟨hle, by rw [← hq]; exact hpl b c⟩

end real

end P3D.Geom
