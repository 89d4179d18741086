/-
`implicitron/tools/circle_fitting.py`: fitting a circle to points in the plane and in space.  The solution of
`torch.linalg.lstsq` is any minimiser (`IsLstsq`), the eigenvectors of `torch.linalg.eigh` are any orthonormal ones for
eigenvalues in ascending order (`IsEigh`).  Batch dimensions of `get_rotation_to_best_fit_xy` are not modelled.
-/
import Verif.Vec3
import Mathlib.Analysis.SpecialFunctions.Complex.Arg
import Mathlib.Tactic.Linarith
import Mathlib.Tactic.Ring
import Mathlib.Tactic.FieldSimp
import Mathlib.Tactic.NormNum
import Mathlib.Tactic.LinearCombination

set_option linter.unusedSectionVars false
set_option linter.unusedSimpArgs false
set_option linter.unusedVariables false

namespace P3D.CircleFit

/-- A point of the plane. -/
structure P2 where
  x : ℝ
  y : ℝ

@[ext] theorem P2.ext {a b : P2} (h1 : a.x = b.x) (h2 : a.y = b.y) : a = b := by cases a; cases b; simp_all

/-- Squared distance in the plane. -/
def d2 (a b : P2) : ℝ := (a.x - b.x) ^ 2 + (a.y - b.y) ^ 2

/-- Squared error of `design @ s - rhs` (circle_fitting.py:113-114); `s` has three entries. -/
noncomputable def cost (pts : List P2) (s : V3 ℝ) : ℝ :=
  (pts.map fun p => (s.x * p.x + s.y * p.y + s.z - (p.x ^ 2 + p.y ^ 2)) ^ 2).sum

/-- `torch.linalg.lstsq(design, rhs).solution` (circle_fitting.py:118): a minimiser. -/
def IsLstsq (pts : List P2) (s : V3 ℝ) : Prop := ∀ s', cost pts s ≤ cost pts s'

/-- `center` (circle_fitting.py:119). -/
noncomputable def center (s : V3 ℝ) : P2 := ⟨s.x / 2, s.y / 2⟩

/-- The number under the root (circle_fitting.py:120). -/
noncomputable def radSq (s : V3 ℝ) : ℝ := s.z + ((center s).x ^ 2 + (center s).y ^ 2)

/-- `radius` (circle_fitting.py:120). -/
noncomputable def radius (s : V3 ℝ) : ℝ := Real.sqrt (radSq s)

/-- Twice the signed area of the fan of triangles at the first point (circle_fitting.py:61-65). -/
def fan (p0 : P2) : List P2 → ℝ
  | a :: b :: l => ((b.y - p0.y) * (a.x - p0.x) - (b.x - p0.x) * (a.y - p0.y)) + fan p0 (b :: l)
  | _ => 0

/-- `_signed_area` (circle_fitting.py:43-65). -/
noncomputable def signedArea : List P2 → ℝ
  | [] => 0
  | p0 :: l => fan p0 l * (1 / 2)

/-- `torch.linspace(0, 2 * pi, n)` (circle_fitting.py:125). -/
noncomputable def linAngles (n : Nat) : List ℝ :=
  (List.range n).map fun i : Nat => if n ≤ 1 then 0 else (i : ℝ) * (2 * Real.pi / ((n : ℝ) - 1))

/-- `initial_angle` (circle_fitting.py:128-129). -/
noncomputable def initialAngle (c p0 : P2) : ℝ := Complex.arg ⟨p0.x - c.x, p0.y - c.y⟩

/-- `generated_points` for given angles (circle_fitting.py:127-138). -/
noncomputable def generated (s : V3 ℝ) (pts : List P2) (p0 : P2) (angles : List ℝ) : List P2 :=
  angles.map fun a =>
    let u := if 0 < signedArea pts then initialAngle (center s) p0 + a else initialAngle (center s) p0 - a
    ⟨(center s).x + radius s * Real.cos u, (center s).y + radius s * Real.sin u⟩

/-- `points.mean(0)` (circle_fitting.py:203). -/
noncomputable def centroid (pts : List (V3 ℝ)) : V3 ℝ :=
  ⟨(pts.map (·.x)).sum / pts.length, (pts.map (·.y)).sum / pts.length, (pts.map (·.z)).sum / pts.length⟩

/-- `points_centered.T @ points_centered` applied to a vector (circle_fitting.py:34-35). -/
noncomputable def cov (pts : List (V3 ℝ)) (c v : V3 ℝ) : V3 ℝ :=
  ⟨(pts.map fun p => V3.dot (p - c) v * (p - c).x).sum, (pts.map fun p => V3.dot (p - c) v * (p - c).y).sum,
    (pts.map fun p => V3.dot (p - c) v * (p - c).z).sum⟩

/-- The result of `torch.linalg.eigh` (circle_fitting.py:35). -/
structure IsEigh (pts : List (V3 ℝ)) (c : V3 ℝ) (e0 e1 e2 : V3 ℝ) (l0 l1 l2 : ℝ) : Prop where
  n0 : V3.dot e0 e0 = 1
  n1 : V3.dot e1 e1 = 1
  n2 : V3.dot e2 e2 = 1
  o01 : V3.dot e0 e1 = 0
  o02 : V3.dot e0 e2 = 0
  o12 : V3.dot e1 e2 = 0
  v0 : cov pts c e0 = l0 • e0
  v1 : cov pts c e1 = l1 • e1
  v2 : cov pts c e2 = l2 • e2
  le01 : l0 ≤ l1
  le12 : l1 ≤ l2

/-- The third column of the rotation (circle_fitting.py:38-40, 205). -/
def normal (e1 e2 : V3 ℝ) : V3 ℝ := V3.cross e1 e2

/-- `rotated_points[:, :2]` (circle_fitting.py:206-208). -/
def flat (c e1 e2 p : V3 ℝ) : P2 := ⟨V3.dot (p - c) e1, V3.dot (p - c) e2⟩

/-- `center_3d` (circle_fitting.py:210). -/
noncomputable def center3 (c e1 e2 : V3 ℝ) (s : V3 ℝ) : V3 ℝ := (center s).x • e1 + (center s).y • e2 + c

/-- The displacement of the generated points (circle_fitting.py:220-229). -/
noncomputable def shift (e1 e2 up o : V3 ℝ) : V3 ℝ :=
  if V3.dot up (normal e1 e2) < 0 then ⟨o.x * 1, o.y * -1, o.z * -1⟩ else o

/-- A generated point in space (circle_fitting.py:213-231); `o` is zero without an offset. -/
noncomputable def lift (c e1 e2 o : V3 ℝ) (g : P2) : V3 ℝ :=
  (g.x + o.x) • e1 + (g.y + o.y) • e2 + (0 + o.z) • normal e1 e2 + c

/-! ### Sums -/

theorem sum_nonneg {α : Type} (l : List α) (f : α → ℝ) (h : ∀ a ∈ l, 0 ≤ f a) : 0 ≤ (l.map f).sum := by
  induction l with
  | nil => simp
  | cons a l ih =>
    rw [List.map_cons, List.sum_cons]
    have := h a (by simp)
    have := ih fun b hb => h b (by simp [hb])
    linarith

theorem sum_zero {α : Type} (l : List α) (f : α → ℝ) (h : ∀ a ∈ l, 0 ≤ f a) (h0 : (l.map f).sum = 0) : ∀ a ∈ l, f a = 0 := by
  induction l with
  | nil => simp
  | cons a l ih =>
    rw [List.map_cons, List.sum_cons] at h0
    have h1 := h a (by simp)
    have h2 := sum_nonneg l f fun b hb => h b (by simp [hb])
    intro b hb
    rcases List.mem_cons.1 hb with rfl | hb
    · linarith
    · exact ih (fun b hb => h b (by simp [hb])) (by linarith) b hb

theorem sum_add {α : Type} (l : List α) (f g : α → ℝ) : (l.map fun a => f a + g a).sum = (l.map f).sum + (l.map g).sum := by
  induction l with
  | nil => simp
  | cons a l ih => simp only [List.map_cons, List.sum_cons, ih]; ring

theorem sum_mul {α : Type} (l : List α) (f : α → ℝ) (k : ℝ) : (l.map fun a => k * f a).sum = k * (l.map f).sum := by
  induction l with
  | nil => simp
  | cons a l ih => simp only [List.map_cons, List.sum_cons, ih]; ring

theorem sum_const {α : Type} (l : List α) (k : ℝ) : (l.map fun _ => k).sum = l.length * k := by
  induction l with
  | nil => simp
  | cons a l ih => simp only [List.map_cons, List.sum_cons, ih, List.length_cons]; push_cast; ring

theorem sum_congr {α : Type} (l : List α) (f g : α → ℝ) (h : ∀ a ∈ l, f a = g a) : (l.map f).sum = (l.map g).sum := by
  rw [List.map_congr_left h]

/-! ### The circle in the plane -/

/-- Residual of a point. -/
def res (s : V3 ℝ) (p : P2) : ℝ := s.x * p.x + s.y * p.y + s.z - (p.x ^ 2 + p.y ^ 2)

theorem res_circle (s : V3 ℝ) (p : P2) : res s p = radSq s - d2 p (center s) := by
  simp only [res, radSq, d2, center]
  ring

/-- If `A + 2 t B + t² C` is smallest at `t = 0`, then `B = 0`. -/
theorem lin_zero {A B C : ℝ} (h : ∀ t : ℝ, A ≤ A + 2 * t * B + t ^ 2 * C) : B = 0 := by
  by_contra hB
  have hC : 0 ≤ C := by
    by_contra hc
    have h1 := h 1
    have h2 := h (-1)
    nlinarith
  have h1 := h (-B / (C + 1))
  have hp : 0 < C + 1 := by linarith
  have hB2 : 0 < B ^ 2 := by positivity
  have e : A + 2 * (-B / (C + 1)) * B + (-B / (C + 1)) ^ 2 * C - A = -(B ^ 2 * (C + 2)) / (C + 1) ^ 2 := by
    field_simp
    ring
  have h3 : -(B ^ 2 * (C + 2)) / (C + 1) ^ 2 < 0 := by
    apply div_neg_of_neg_of_pos
    · nlinarith
    · positivity
  linarith

theorem cost_line (pts : List P2) (s v : V3 ℝ) (t : ℝ) :
    cost pts (s + t • v) = cost pts s + 2 * t * (pts.map fun p => res s p * (v.x * p.x + v.y * p.y + v.z)).sum
      + t ^ 2 * (pts.map fun p => (v.x * p.x + v.y * p.y + v.z) ^ 2).sum := by
  unfold cost
  rw [← sum_mul, ← sum_mul, ← sum_add, ← sum_add]
  apply sum_congr
  intro p _
  simp only [res, V3.add_x, V3.add_y, V3.add_z, V3.smul_x, V3.smul_y, V3.smul_z]
  ring

/-- A minimiser satisfies the normal equations, in every direction. -/
theorem normal_eq {pts : List P2} {s : V3 ℝ} (h : IsLstsq pts s) (v : V3 ℝ) :
    (pts.map fun p => res s p * (v.x * p.x + v.y * p.y + v.z)).sum = 0 := by
  apply lin_zero (A := cost pts s) (C := (pts.map fun p => (v.x * p.x + v.y * p.y + v.z) ^ 2).sum)
  intro t
  rw [← cost_line]
  exact h _

/-- And conversely. -/
theorem lstsq_of_normal {pts : List P2} {s : V3 ℝ}
    (h : ∀ v : V3 ℝ, (pts.map fun p => res s p * (v.x * p.x + v.y * p.y + v.z)).sum = 0) : IsLstsq pts s := by
  intro s'
  have e := cost_line pts s (s' - s) 1
  have hs : s + (1 : ℝ) • (s' - s) = s' := by rw [one_smul]; abel
  rw [hs, h (s' - s)] at e
  rw [e]
  have := sum_nonneg pts (fun p => ((s' - s).x * p.x + (s' - s).y * p.y + (s' - s).z) ^ 2) fun p _ => sq_nonneg _
  linarith

/-- The radius is the root of the mean squared distance from the centre; the number under the root is never negative. -/
theorem radius_mean {pts : List P2} {s : V3 ℝ} (h : IsLstsq pts s) (hn : pts ≠ []) :
    radSq s = (pts.map fun p => d2 p (center s)).sum / pts.length ∧ 0 ≤ radSq s ∧ radius s ^ 2 = radSq s := by
  have h1 := normal_eq h ⟨0, 0, 1⟩
  have h2 : (pts.map fun p => res s p * ((⟨0, 0, 1⟩ : V3 ℝ).x * p.x + (⟨0, 0, 1⟩ : V3 ℝ).y * p.y + (⟨0, 0, 1⟩ : V3 ℝ).z)).sum
      = (pts.map fun p => radSq s + (-1) * d2 p (center s)).sum := by
    apply sum_congr
    intro p _
    rw [res_circle]
    simp only
    ring
  rw [h2, sum_add, sum_const, sum_mul] at h1
  have hl : (0 : ℝ) < pts.length := by exact_mod_cast List.length_pos_iff.2 hn
  have e : radSq s = (pts.map fun p => d2 p (center s)).sum / pts.length := by
    rw [eq_div_iff hl.ne']
    linarith
  have h0 : 0 ≤ radSq s := by
    rw [e]
    apply div_nonneg _ hl.le
    exact sum_nonneg _ _ fun p _ => by unfold d2; positivity
  exact ⟨e, h0, Real.sq_sqrt h0⟩

/-- The documented optimality: no circle has a smaller sum of squares of `r² - distance²`. -/
theorem fit_optimal {pts : List P2} {s : V3 ℝ} (h : IsLstsq pts s) (hn : pts ≠ []) (c : P2) (r : ℝ) :
    (pts.map fun p => (radius s ^ 2 - d2 p (center s)) ^ 2).sum ≤ (pts.map fun p => (r ^ 2 - d2 p c) ^ 2).sum := by
  have h1 := h ⟨2 * c.x, 2 * c.y, r ^ 2 - c.x ^ 2 - c.y ^ 2⟩
  have e1 : cost pts s = (pts.map fun p => (radius s ^ 2 - d2 p (center s)) ^ 2).sum := by
    apply sum_congr
    intro p _
    rw [(radius_mean h hn).2.2, ← res_circle]
    rfl
  have e2 : cost pts ⟨2 * c.x, 2 * c.y, r ^ 2 - c.x ^ 2 - c.y ^ 2⟩ = (pts.map fun p => (r ^ 2 - d2 p c) ^ 2).sum := by
    apply sum_congr
    intro p _
    simp only [d2]
    ring
  rw [e1, e2] at h1
  exact h1

/-- Twice the area of a triangle. -/
def area2 (a b c : P2) : ℝ := (b.x - a.x) * (c.y - a.y) - (c.x - a.x) * (b.y - a.y)

/-- Three of the points are not on a line. -/
def Spread (pts : List P2) : Prop := ∃ a ∈ pts, ∃ b ∈ pts, ∃ c ∈ pts, area2 a b c ≠ 0

theorem linear_zero {a b c : P2} (h : area2 a b c ≠ 0) {v : V3 ℝ} (ha : v.x * a.x + v.y * a.y + v.z = 0)
    (hb : v.x * b.x + v.y * b.y + v.z = 0) (hc : v.x * c.x + v.y * c.y + v.z = 0) : v = 0 := by
  have hx : v.x * area2 a b c = 0 := by
    unfold area2
    linear_combination (c.y - a.y) * (hb - ha) - (b.y - a.y) * (hc - ha)
  have hy : v.y * area2 a b c = 0 := by
    unfold area2
    linear_combination (b.x - a.x) * (hc - ha) - (c.x - a.x) * (hb - ha)
  have hx' := (mul_eq_zero.1 hx).resolve_right h
  have hy' := (mul_eq_zero.1 hy).resolve_right h
  have hz' : v.z = 0 := by rw [hx', hy'] at ha; linarith
  ext
  · exact hx'
  · exact hy'
  · exact hz'

/-- Points of a circle that are not all on a line give back the circle. -/
theorem fit_exact {pts : List P2} {s : V3 ℝ} (h : IsLstsq pts s) (hs : Spread pts) {c : P2} {r : ℝ} (hr : 0 ≤ r)
    (hc : ∀ p ∈ pts, d2 p c = r ^ 2) : center s = c ∧ radius s = r := by
  have h0 : cost pts ⟨2 * c.x, 2 * c.y, r ^ 2 - c.x ^ 2 - c.y ^ 2⟩ = 0 := by
    have : cost pts ⟨2 * c.x, 2 * c.y, r ^ 2 - c.x ^ 2 - c.y ^ 2⟩ = (pts.map fun _ => (0 : ℝ)).sum := by
      apply sum_congr
      intro p hp
      have := hc p hp
      simp only [d2] at this
      simp only
      have e : 2 * c.x * p.x + 2 * c.y * p.y + (r ^ 2 - c.x ^ 2 - c.y ^ 2) - (p.x ^ 2 + p.y ^ 2) = 0 := by linarith
      rw [e]
      ring
    rw [this, sum_const, mul_zero]
  have h1 : cost pts s = 0 := by
    apply le_antisymm
    · rw [← h0]; exact h _
    · exact sum_nonneg _ _ fun p _ => sq_nonneg _
  have h2 := sum_zero pts _ (fun p _ => sq_nonneg _) h1
  have h3 : ∀ p ∈ pts, (s.x - 2 * c.x) * p.x + (s.y - 2 * c.y) * p.y + (s.z - (r ^ 2 - c.x ^ 2 - c.y ^ 2)) = 0 := by
    intro p hp
    have e1 := pow_eq_zero_iff (two_ne_zero) |>.1 (h2 p hp)
    have e2 := hc p hp
    simp only [d2] at e2
    linarith
  obtain ⟨a, ha, b, hb, d, hd, hne⟩ := hs
  have hv := linear_zero hne (v := ⟨s.x - 2 * c.x, s.y - 2 * c.y, s.z - (r ^ 2 - c.x ^ 2 - c.y ^ 2)⟩) (h3 a ha) (h3 b hb) (h3 d hd)
  have hx : s.x - 2 * c.x = 0 := congrArg V3.x hv
  have hy : s.y - 2 * c.y = 0 := congrArg V3.y hv
  have hz : s.z - (r ^ 2 - c.x ^ 2 - c.y ^ 2) = 0 := congrArg V3.z hv
  have hcx : s.x / 2 = c.x := by linarith
  have hcy : s.y / 2 = c.y := by linarith
  refine ⟨P2.ext hcx hcy, ?_⟩
  have : radSq s = r ^ 2 := by
    simp only [radSq, center, hcx, hcy]
    linarith
  rw [radius, this, Real.sqrt_sq hr]

/-- The circle is determined by the points exactly if they are not on a line. -/
theorem fit_unique {pts : List P2} {s : V3 ℝ} (h : IsLstsq pts s) : (∀ s', IsLstsq pts s' → s' = s) ↔ Spread pts := by
  constructor
  · intro hu
    by_contra hs
    have hcol : ∀ a ∈ pts, ∀ b ∈ pts, ∀ c ∈ pts, area2 a b c = 0 := by
      intro a ha b hb c hc
      by_contra hne
      exact hs ⟨a, ha, b, hb, c, hc, hne⟩
    -- a linear function that vanishes on all points
    obtain ⟨v, hv0, hv⟩ : ∃ v : V3 ℝ, v ≠ 0 ∧ ∀ p ∈ pts, v.x * p.x + v.y * p.y + v.z = 0 := by
      rcases pts with _ | ⟨a, l⟩
      · exact ⟨⟨0, 0, 1⟩, by intro h; have := congrArg V3.z h; simp at this, by simp⟩
      · by_cases hall : ∀ b ∈ l, b = a
        · refine ⟨⟨1, 0, -a.x⟩, by intro h; have := congrArg V3.x h; simp at this, ?_⟩
          intro p hp
          have : p = a := by
            rcases List.mem_cons.1 hp with h | h
            · exact h
            · exact hall p h
          rw [this]
          simp
        · push Not at hall
          obtain ⟨b, hb, hba⟩ := hall
          refine ⟨⟨-(b.y - a.y), b.x - a.x, (b.y - a.y) * a.x - (b.x - a.x) * a.y⟩, ?_, ?_⟩
          · intro h
            have h1 := congrArg V3.x h
            have h2 := congrArg V3.y h
            simp only [V3.zero_x, V3.zero_y] at h1 h2
            exact hba (P2.ext (by linarith) (by linarith))
          · intro p hp
            have := hcol a (by simp) b (by simp [hb]) p hp
            simp only [area2] at this
            simp only
            linarith
    have h2 : IsLstsq pts (s + v) := by
      intro s'
      have : cost pts (s + v) = cost pts s := by
        apply sum_congr
        intro p hp
        have := hv p hp
        simp only [V3.add_x, V3.add_y, V3.add_z]
        congr 1
        linarith
      rw [this]
      exact h s'
    have h3 := hu _ h2
    exact hv0 (by simpa using h3)
  · intro hs s' h'
    have hc : cost pts s' = cost pts s := le_antisymm (h' s) (h s')
    have e := cost_line pts s (s' - s) 1
    have hss : s + (1 : ℝ) • (s' - s) = s' := by rw [one_smul]; abel
    rw [hss, normal_eq h, hc] at e
    have h0 : (pts.map fun p => ((s' - s).x * p.x + (s' - s).y * p.y + (s' - s).z) ^ 2).sum = 0 := by linarith
    have hz := sum_zero pts _ (fun p _ => sq_nonneg _) h0
    obtain ⟨a, ha, b, hb, d, hd, hne⟩ := hs
    have hv := linear_zero hne (v := s' - s) (pow_eq_zero_iff two_ne_zero |>.1 (hz a ha)) (pow_eq_zero_iff two_ne_zero |>.1 (hz b hb))
      (pow_eq_zero_iff two_ne_zero |>.1 (hz d hd))
    exact sub_eq_zero.1 hv

end P3D.CircleFit
