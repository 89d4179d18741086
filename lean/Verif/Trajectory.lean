/-
Camera trajectories for evaluation videos (`implicitron/tools/eval_video_trajectory.py`).

The central camera, the standard deviation that scales a knot and the normal of the plane (`torch.linalg.eigh`) are parameters; the circle is `CircleFit`.  Not modelled:
focal lengths and principal points (means of those of the training cameras), removal of outliers (`ImpChunks.keep_inlier`), floats.
-/
import Verif.CameraUtils
import Verif.CircleFitProps
import Mathlib.RingTheory.RootsOfUnity.Complex
import Mathlib.Analysis.SpecialFunctions.Trigonometric.Basic
import Mathlib.Tactic.LinearCombination

set_option linter.unusedSectionVars false

namespace P3D.Traj

open Camera CameraUtils

/-! ### The code -/

/-- `_figure_eight` (eval_video_trajectory.py:266-270). -/
noncomputable def eight (t : ℝ) : V3 ℝ := ⟨Real.cos t, Real.sin (2 * t) / 2, Real.sin t * (1 / 2)⟩

/-- `_trefoil_knot` (lines 259-263). -/
noncomputable def trefoil (t : ℝ) : V3 ℝ := ⟨Real.sin t + 2 * Real.sin (2 * t), Real.cos t - 2 * Real.cos (2 * t), -Real.sin (3 * t) * (1 / 2)⟩

/-- `_figure_eight_knot` (lines 252-256). -/
noncomputable def eightKnot (t : ℝ) : V3 ℝ := ⟨(2 + Real.cos (2 * t)) * Real.cos (3 * t), (2 + Real.cos (2 * t)) * Real.sin (3 * t), Real.sin (4 * t) * (1 / 2)⟩

/-- `torch.linspace(0, 2 * math.pi, n + 1)[:n]` (line 93). -/
noncomputable def times (n : Nat) : List ℝ := (List.range n).map fun i : Nat => (i : ℝ) * (2 * Real.pi / n)

/-- `traj[:, 2].max()`. -/
noncomputable def zMax : List (V3 ℝ) → ℝ
  | [] => 0
  | [p] => p.z
  | p :: l => max p.z (zMax l)

/-- `traj[:, 2] -= traj[:, 2].max()` (line 104). -/
noncomputable def lower (l : List (V3 ℝ)) : List (V3 ℝ) := l.map fun p => ⟨p.x, p.y, p.z - zMax l⟩

/-- Scale, inverse view transform of the central camera, and the offset, which `Transform3d.translate` applies last (lines 113-122). -/
noncomputable def place (R : M3 ℝ) (T : V3 ℝ) (s : ℝ) (o : V3 ℝ) (p : V3 ℝ) : Option (V3 ℝ) := (unview R T (s • p)).map (· + o)

/-- The knot trajectories (lines 91-122); `none` for a singular camera. -/
noncomputable def knot (curve : ℝ → V3 ℝ) (ts : List ℝ) (R : M3 ℝ) (T : V3 ℝ) (s : ℝ) (o : V3 ℝ) : Option (List (V3 ℝ)) := (lower (ts.map curve)).mapM (place R T s o)

/-- `_disambiguate_normal` (lines 222-227). -/
noncomputable def disambiguate (n up : V3 ℝ) : V3 ℝ := (if 0 < V3.dot up n then 1 else if V3.dot up n < 0 then -1 else 0 : ℝ) • n

/-- The mean of the points and the scaling about it (lines 152-154). -/
noncomputable def meanPt (l : List (V3 ℝ)) : V3 ℝ := ⟨(l.map V3.x).sum / l.length, (l.map V3.y).sum / l.length, (l.map V3.z).sum / l.length⟩
noncomputable def scaleAbout (s : ℝ) (l : List (V3 ℝ)) : List (V3 ℝ) := l.map fun p => s • (p - meanPt l) + meanPt l

/-- All cameras (lines 165-174). -/
noncomputable def cameras (traj : List (V3 ℝ)) (off «at» up : V3 ℝ) : List (M3 ℝ × V3 ℝ) := traj.map fun p => lookAtEye (p + off) «at» up

/-! ### Curves -/

theorem trig_period (k : Nat) (t : ℝ) : Real.sin (k * (t + 2 * Real.pi)) = Real.sin (k * t) ∧ Real.cos (k * (t + 2 * Real.pi)) = Real.cos (k * t) := by
  have : (k : ℝ) * (t + 2 * Real.pi) = k * t + k * (2 * Real.pi) := by ring
  rw [this]
  exact ⟨Real.sin_add_nat_mul_two_pi _ _, Real.cos_add_nat_mul_two_pi _ _⟩

/-- All curves have the period 2π, so the trajectory closes. -/
theorem periodic (t : ℝ) : eight (t + 2 * Real.pi) = eight t ∧ trefoil (t + 2 * Real.pi) = trefoil t ∧ eightKnot (t + 2 * Real.pi) = eightKnot t := by
  have h1 := trig_period 1 t
  have h2 := trig_period 2 t
  have h3 := trig_period 3 t
  have h4 := trig_period 4 t
  norm_num at h1 h2 h3 h4
  unfold eight trefoil eightKnot
  rw [Real.sin_add_two_pi, Real.cos_add_two_pi, h2.1, h2.2, h3.1, h3.2, h4.1]
  exact ⟨rfl, rfl, rfl⟩

/-- The figure of eight stays in a box of half sizes 1, 1/2 and 1/2, and crosses itself in projection: a quarter and three quarters of the period differ in z only. -/
theorem eight_box (t : ℝ) : |(eight t).x| ≤ 1 ∧ |(eight t).y| ≤ 1 / 2 ∧ |(eight t).z| ≤ 1 / 2 := by
  unfold eight
  dsimp only
  refine ⟨Real.abs_cos_le_one t, ?_, ?_⟩
  · rw [abs_div, abs_two]
    linarith [Real.abs_sin_le_one (2 * t)]
  · rw [abs_mul, abs_of_pos (by norm_num : (0 : ℝ) < 1 / 2)]
    linarith [Real.abs_sin_le_one t]

theorem eight_cross : eight (Real.pi / 2) = ⟨0, 0, 1 / 2⟩ ∧ eight (3 * Real.pi / 2) = ⟨0, 0, -(1 / 2)⟩ := by
  unfold eight
  have h1 : 2 * (Real.pi / 2) = Real.pi := by ring
  have h2 : 2 * (3 * Real.pi / 2) = Real.pi + 2 * Real.pi := by ring
  have h3 : 3 * Real.pi / 2 = Real.pi / 2 + Real.pi := by ring
  rw [h1, h2, h3, Real.cos_add_pi, Real.sin_add_pi, Real.sin_add_two_pi, Real.sin_pi, Real.cos_pi_div_two, Real.sin_pi_div_two]
  constructor <;> ext <;> norm_num

/-- The figure-eight knot stays between the cylinders of radius 1 and 3. -/
theorem eightKnot_ring (t : ℝ) : 1 ≤ (eightKnot t).x ^ 2 + (eightKnot t).y ^ 2 ∧ (eightKnot t).x ^ 2 + (eightKnot t).y ^ 2 ≤ 9 := by
  have e : (eightKnot t).x ^ 2 + (eightKnot t).y ^ 2 = (2 + Real.cos (2 * t)) ^ 2 := by
    unfold eightKnot
    dsimp only
    linear_combination (2 + Real.cos (2 * t)) ^ 2 * Real.sin_sq_add_cos_sq (3 * t)
  rw [e]
  have h1 := Real.neg_one_le_cos (2 * t)
  have h2 := Real.cos_le_one (2 * t)
  constructor <;> nlinarith

/-- The trefoil has distance between 1 and 3 from the axis. -/
theorem trefoil_ring (t : ℝ) : 1 ≤ (trefoil t).x ^ 2 + (trefoil t).y ^ 2 ∧ (trefoil t).x ^ 2 + (trefoil t).y ^ 2 ≤ 9 := by
  have e : (trefoil t).x ^ 2 + (trefoil t).y ^ 2 = 5 - 4 * Real.cos (3 * t) := by
    unfold trefoil
    dsimp only
    have h3 : 3 * t = 2 * t + t := by ring
    rw [h3, Real.cos_add]
    linear_combination Real.sin_sq_add_cos_sq t + 4 * Real.sin_sq_add_cos_sq (2 * t)
  rw [e]
  have h1 := Real.neg_one_le_cos (3 * t)
  have h2 := Real.cos_le_one (3 * t)
  constructor <;> linarith

theorem times_range (n : Nat) : ∀ t ∈ times n, 0 ≤ t ∧ t < 2 * Real.pi := by
  intro t ht
  unfold times at ht
  obtain ⟨i, hi, rfl⟩ := List.mem_map.mp ht
  have hi := List.mem_range.mp hi
  have hn : (0 : ℝ) < n := by exact_mod_cast (by omega : 0 < n)
  have hi' : (i : ℝ) < n := by exact_mod_cast hi
  have hp := Real.pi_pos
  refine ⟨by positivity, ?_⟩
  rw [mul_div_assoc', div_lt_iff₀ hn]
  nlinarith

/-! ### Knots in front of the scene -/

theorem zMax_le (l : List (V3 ℝ)) : ∀ p ∈ l, p.z ≤ zMax l := by
  induction l with
  | nil => simp
  | cons a l ih =>
    intro p hp
    cases l with
    | nil =>
      rw [List.mem_singleton.mp hp]
      exact le_rfl
    | cons b l =>
      rw [zMax]
      · rcases List.mem_cons.mp hp with rfl | h
        · exact le_max_left _ _
        · exact (ih p h).trans (le_max_right _ _)
      · simp

theorem zMax_mem (l : List (V3 ℝ)) (hl : l ≠ []) : ∃ p ∈ l, p.z = zMax l := by
  induction l with
  | nil => exact absurd rfl hl
  | cons a l ih =>
    cases l with
    | nil => exact ⟨a, List.mem_cons_self, rfl⟩
    | cons b l =>
      obtain ⟨p, hp, h⟩ := ih (by simp)
      have hz : zMax (a :: b :: l) = max a.z (zMax (b :: l)) := by
        rw [zMax]
        simp
      rw [hz]
      rcases le_total a.z (zMax (b :: l)) with hc | hc
      · exact ⟨p, List.mem_cons_of_mem _ hp, by rw [max_eq_right hc, h]⟩
      · exact ⟨a, List.mem_cons_self, by rw [max_eq_left hc]⟩

theorem mapM_some {α β : Type} (f : α → Option β) (l : List α) (r : List β) (h : l.mapM f = some r) : r.length = l.length ∧ ∀ (i : Nat) (y : β), r[i]? = some y → ∃ x, l[i]? = some x ∧ f x = some y := by
  induction l generalizing r with
  | nil =>
    rw [List.mapM_nil] at h
    have h : r = [] := (Option.some.inj h).symm
    subst h
    exact ⟨rfl, fun i y hy => by simp at hy⟩
  | cons a l ih =>
    rw [List.mapM_cons] at h
    cases ha : f a with
    | none =>
      rw [ha] at h
      cases h
    | some b =>
      cases hl : l.mapM f with
      | none =>
        rw [ha, hl] at h
        cases h
      | some r' =>
        rw [ha, hl] at h
        have h : r = b :: r' := (Option.some.inj h).symm
        subst h
        obtain ⟨h1, h2⟩ := ih r' hl
        refine ⟨by simp [h1], ?_⟩
        intro i y hy
        cases i with
        | zero => exact ⟨a, rfl, by rw [ha]; exact hy⟩
        | succ i => exact h2 i y (by simpa using hy)

/-- Without offset the i-th camera centre is seen by the central camera at the scaled point of the curve, lowered such that the largest z is 0: with a scale that is not negative no
centre is in front of the central camera. -/
theorem knot_view (curve : ℝ → V3 ℝ) (ts : List ℝ) (R : M3 ℝ) (T : V3 ℝ) (s : ℝ) (hs : 0 ≤ s) (o : V3 ℝ) (r : List (V3 ℝ)) (h : knot curve ts R T s o = some r) :
    r.length = ts.length ∧ ∀ (i : Nat) (q : V3 ℝ), r[i]? = some q → ∃ t, ts[i]? = some t ∧
      view R T (q - o) = s • ⟨(curve t).x, (curve t).y, (curve t).z - zMax (ts.map curve)⟩ ∧ (view R T (q - o)).z ≤ 0 := by
  obtain ⟨h1, h2⟩ := mapM_some _ _ _ h
  refine ⟨by rw [h1, lower, List.length_map, List.length_map], ?_⟩
  intro i q hq
  obtain ⟨p, hp, hpl⟩ := h2 i q hq
  rw [lower, List.getElem?_map] at hp
  cases hc : (ts.map curve)[i]? with
  | none =>
    rw [hc] at hp
    cases hp
  | some c =>
    rw [hc] at hp
    have hp := (Option.some.inj hp).symm
    have hmem := List.mem_of_getElem? hc
    rw [List.getElem?_map] at hc
    cases ht : ts[i]? with
    | none =>
      rw [ht] at hc
      cases hc
    | some t =>
      rw [ht] at hc
      have hc := Option.some.inj hc
      subst hc
      unfold place at hpl
      cases hu : unview R T (s • p) with
      | none =>
        rw [hu] at hpl
        cases hpl
      | some w =>
        rw [hu] at hpl
        have hq' : w + o = q := Option.some.inj hpl
        have hw : q - o = w := by
          rw [← hq']
          ext <;> simp
        have hv := view_unview hu
        refine ⟨t, rfl, ?_, ?_⟩
        · rw [hw, hv, hp]
        · rw [hw, hv, hp]
          simp only [V3.smul_z]
          have := zMax_le _ _ hmem
          nlinarith

/-- The canonical offset is added in world coordinates: the trajectory moves by the same vector whatever the central camera, although it is documented as one in local coordinates. -/
theorem offset_world (curve : ℝ → V3 ℝ) (ts : List ℝ) (R : M3 ℝ) (T : V3 ℝ) (s : ℝ) (o : V3 ℝ) :
    knot curve ts R T s o = (knot curve ts R T s 0).map fun l => l.map (· + o) := by
  unfold knot
  generalize lower (ts.map curve) = l
  have hp : ∀ p, place R T s o p = (place R T s 0 p).map (· + o) := by
    intro p
    unfold place
    cases unview R T (s • p) with
    | none => rfl
    | some w =>
      show some (w + o) = some (w + 0 + o)
      congr 2
      ext <;> simp
  induction l with
  | nil => rfl
  | cons p l ih =>
    rw [List.mapM_cons, List.mapM_cons, hp, ih]
    cases place R T s 0 p with
    | none => rfl
    | some w =>
      cases l.mapM (place R T s 0) with
      | none => rfl
      | some r => rfl

/-- A camera turned by a right angle: an offset of 1 along its viewing direction would move the centres along x, but they move along z. -/
theorem offset_not_local : ∃ (R : M3 ℝ) (T : V3 ℝ), R.det = 1 ∧ unview R T ⟨0, 0, 1⟩ = some ⟨1, 0, 0⟩ ∧ place R T 1 ⟨0, 0, 1⟩ 0 = some ⟨0, 0, 1⟩ := by
  refine ⟨⟨0, 0, 1, 0, 1, 0, -1, 0, 0⟩, 0, by simp [M3.det], ?_, ?_⟩
  · unfold unview
    rw [if_neg (by simp [M3.det])]
    congr 1
    ext <;> simp [M3.vecMul, M3.det, M3.adj, M3.smul_def]
  · unfold place unview
    rw [if_neg (by simp [M3.det])]
    show some _ = some _
    congr 1
    ext <;> simp [M3.vecMul, M3.det, M3.adj, M3.smul_def]

/-! ### The circle -/

/-- Equally spaced directions over the full circle, m ≥ 2, add up to zero. -/
theorem roots_sum (m : Nat) (hm : 2 ≤ m) (a : ℝ) :
    ((List.range m).map fun k : Nat => Real.cos (a + k * (2 * Real.pi / m))).sum = 0 ∧ ((List.range m).map fun k : Nat => Real.sin (a + k * (2 * Real.pi / m))).sum = 0 := by
  have hz := (Complex.isPrimitiveRoot_exp m (by omega)).geom_sum_eq_zero (by omega)
  have key : (∑ k ∈ Finset.range m, Complex.exp ((a + k * (2 * Real.pi / m) : ℝ) * Complex.I)) = 0 := by
    have : ∀ k ∈ Finset.range m, Complex.exp ((a + k * (2 * Real.pi / m) : ℝ) * Complex.I) =
        Complex.exp (a * Complex.I) * Complex.exp (2 * Real.pi * Complex.I / m) ^ k := by
      intro k _
      rw [← Complex.exp_nat_mul, ← Complex.exp_add]
      congr 1
      push_cast
      ring
    rw [Finset.sum_congr rfl this, ← Finset.mul_sum, hz, mul_zero]
  have hl : ∀ f : Nat → ℝ, ((List.range m).map f).sum = ∑ k ∈ Finset.range m, f k := by
    intro f
    clear key hz
    generalize m = j
    induction j with
    | zero => rfl
    | succ j ih => rw [List.range_succ, List.map_append, List.sum_append, ih, Finset.sum_range_succ]; simp
  constructor
  · rw [hl]
    have := congrArg Complex.re key
    rw [Complex.re_sum] at this
    simpa only [Complex.exp_ofReal_mul_I_re, Complex.zero_re] using this
  · rw [hl]
    have := congrArg Complex.im key
    rw [Complex.im_sum] at this
    simpa only [Complex.exp_ofReal_mul_I_im, Complex.zero_im] using this

/-- The circular trajectory uses `linspace(0, 2π, n)` with both ends, so the first point occurs twice; the mean about which it is scaled is therefore not the centre of the circle but moved by
`r / n` towards the first point. -/
theorem circle_mean (n : Nat) (hn : 3 ≤ n) (a r : ℝ) :
    ((CircleFit.linAngles n).map fun t => r * Real.cos (a + t)).sum / n = r * Real.cos a / n ∧ ((CircleFit.linAngles n).map fun t => r * Real.sin (a + t)).sum / n = r * Real.sin a / n := by
  obtain ⟨m, rfl⟩ : ∃ m, n = m + 1 := ⟨n - 1, by omega⟩
  have hs := roots_sum m (by omega) a
  have hm : (m : ℝ) ≠ 0 := by exact_mod_cast (by omega : m ≠ 0)
  have hl : CircleFit.linAngles (m + 1) = ((List.range m).map fun i : Nat => (i : ℝ) * (2 * Real.pi / m)) ++ [2 * Real.pi] := by
    unfold CircleFit.linAngles
    rw [List.range_succ, List.map_append]
    simp only [show ¬ m + 1 ≤ 1 by omega, if_false, Nat.cast_add, Nat.cast_one, add_sub_cancel_right, List.map_cons, List.map_nil]
    congr 2
    field_simp
  rw [hl]
  have e1 := hs.1
  have e2 := hs.2
  simp only [List.map_append, List.map_map, List.map_cons, List.map_nil, List.sum_append, List.sum_singleton, Function.comp_def]
  rw [Real.cos_add_two_pi, Real.sin_add_two_pi, List.sum_map_mul_left, List.sum_map_mul_left, e1, e2]
  simp

/-- Scaling keeps the mean, so a scaled circle has its centre moved from `c` towards the mean by `1 - s`. -/
theorem scaleAbout_center (s : ℝ) (l : List (V3 ℝ)) (c : V3 ℝ) (ρ : ℝ) (h : ∀ p ∈ l, V3.normSq (p - c) = ρ) :
    ∀ q ∈ scaleAbout s l, V3.normSq (q - (s • c + (1 - s) • meanPt l)) = s ^ 2 * ρ := by
  intro q hq
  unfold scaleAbout at hq
  obtain ⟨p, hp, rfl⟩ := List.mem_map.mp hq
  have := h p hp
  rw [← this]
  generalize meanPt l = m
  simp only [V3.normSq, V3.dot, V3.sub_x, V3.sub_y, V3.sub_z, V3.add_x, V3.add_y, V3.add_z, V3.smul_x, V3.smul_y, V3.smul_z]
  ring

/-! ### Directions -/

/-- The inferred up vector is the normal or its opposite, on the side of the given one; it is zero if the given one lies in the plane. -/
theorem disambiguate_spec (n up : V3 ℝ) : 0 ≤ V3.dot up (disambiguate n up) ∧ (V3.dot up n ≠ 0 → disambiguate n up = n ∨ disambiguate n up = (-1 : ℝ) • n) ∧
    (V3.dot up n = 0 → disambiguate n up = 0) := by
  have hd : ∀ k : ℝ, V3.dot up (k • n) = k * V3.dot up n := by
    intro k
    simp only [V3.dot, V3.smul_x, V3.smul_y, V3.smul_z]
    ring
  unfold disambiguate
  rw [hd]
  rcases lt_trichotomy (V3.dot up n) 0 with h | h | h
  · rw [if_neg (by linarith), if_pos h]
    exact ⟨by linarith, fun _ => Or.inr rfl, fun h' => absurd h' h.ne⟩
  · rw [if_neg (by linarith), if_neg (by linarith)]
    exact ⟨by rw [h]; simp, fun h' => absurd h h', fun _ => by ext <;> simp⟩
  · rw [if_pos h]
    exact ⟨by linarith, fun _ => Or.inl (by ext <;> simp), fun h' => absurd h' h.ne'⟩

/-- Every camera sits at its point of the trajectory and sees the scene centre on its axis, at its distance. -/
theorem cameras_look (traj : List (V3 ℝ)) (off c up : V3 ℝ) (i : Nat) (p : V3 ℝ) (hp : traj[i]? = some p) (hd : 1 / 10 ^ 5 ≤ Rot.norm (c - (p + off))) :
    ∃ RT, (cameras traj off c up)[i]? = some RT ∧ view RT.1 RT.2 (p + off) = 0 ∧ view RT.1 RT.2 c = ⟨0, 0, Rot.norm (c - (p + off))⟩ := by
  refine ⟨lookAtEye (p + off) c up, ?_, lookAt_eye _ _ _, lookAt_target hd⟩
  rw [cameras, List.getElem?_map, hp]
  rfl

/-- If the given up vector lies in the fitted plane no camera is valid: all rotations are singular. -/
theorem up_in_plane (traj : List (V3 ℝ)) (off c n up : V3 ℝ) (h : V3.dot up n = 0) : ∀ RT ∈ cameras traj off c (disambiguate n up), RT.1.det = 0 := by
  intro RT hRT
  unfold cameras at hRT
  obtain ⟨p, -, rfl⟩ := List.mem_map.mp hRT
  rw [(disambiguate_spec n up).2.2 h]
  exact (lookAt_parallel (by ext <;> simp [V3.cross])).2.2

/-! ### Examples -/

example : scaleAbout 2 [⟨0, 0, 0⟩, ⟨2, 0, 0⟩] = [⟨-1, 0, 0⟩, ⟨3, 0, 0⟩] := by
  norm_num [scaleAbout, meanPt, V3.ext_iff]

example : disambiguate ⟨0, 0, 1⟩ ⟨1, 0, -3⟩ = ⟨0, 0, -1⟩ := by
  norm_num [disambiguate, V3.dot, V3.ext_iff]

example : lower [⟨0, 0, 1⟩, ⟨1, 0, 3⟩] = [⟨0, 0, -2⟩, ⟨1, 0, 0⟩] := by
  norm_num [lower, zMax]

end P3D.Traj
