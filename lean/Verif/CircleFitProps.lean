/-
Properties of `fit_circle_in_2d` and `fit_circle_in_3d`: the generated points, the signed area, similarity, and the circle
in space.
-/
import Verif.CircleFit
import Mathlib.LinearAlgebra.Matrix.NonsingularInverse
import Mathlib.LinearAlgebra.Matrix.Notation
import Mathlib.Tactic.FinCases

set_option linter.unusedSectionVars false
set_option linter.unusedSimpArgs false
set_option linter.unusedVariables false

namespace P3D.CircleFit

/-! ### Order and position of the points -/

/-- Centre and radius do not depend on the order of the points. -/
theorem fit_perm {pts qts : List P2} (h : pts.Perm qts) (s : V3 ℝ) : IsLstsq pts s ↔ IsLstsq qts s := by
  have : ∀ s, cost pts s = cost qts s := fun s => (h.map _).sum_eq
  simp only [IsLstsq, this]

/-- The solution that stands for the circle with the given centre and squared radius. -/
def ofCircle (c : P2) (q : ℝ) : V3 ℝ := ⟨2 * c.x, 2 * c.y, q - (c.x ^ 2 + c.y ^ 2)⟩

theorem ofCircle_center (c : P2) (q : ℝ) : center (ofCircle c q) = c := by
  simp [center, ofCircle]

theorem ofCircle_radSq (c : P2) (q : ℝ) : radSq (ofCircle c q) = q := by
  rw [radSq, ofCircle_center]
  simp [ofCircle]

theorem cost_circle (pts : List P2) (s : V3 ℝ) : cost pts s = (pts.map fun p => (radSq s - d2 p (center s)) ^ 2).sum := by
  apply sum_congr
  intro p _
  rw [← res_circle]
  rfl

/-- Moving, turning, mirroring or scaling the points does the same with the circle. -/
theorem fit_similar {pts : List P2} {s : V3 ℝ} (h : IsLstsq pts s) {T : P2 → P2} {k : ℝ} (hk : 0 < k)
    (hT : ∀ p q, d2 (T p) (T q) = k ^ 2 * d2 p q) (hs : Function.Surjective T) :
    ∃ s', IsLstsq (pts.map T) s' ∧ center s' = T (center s) ∧ radSq s' = k ^ 2 * radSq s ∧ radius s' = k * radius s := by
  have hcost : ∀ c q, cost (pts.map T) (ofCircle (T c) (k ^ 2 * q)) = k ^ 4 * cost pts (ofCircle c q) := by
    intro c q
    rw [cost_circle, cost_circle, ofCircle_center, ofCircle_center, ofCircle_radSq, ofCircle_radSq, ← sum_mul, List.map_map]
    apply sum_congr
    intro p _
    simp only [Function.comp, hT]
    ring
  have hof : ∀ s, ofCircle (center s) (radSq s) = s := by
    intro s
    ext <;> simp [ofCircle, center, radSq] <;> ring
  refine ⟨ofCircle (T (center s)) (k ^ 2 * radSq s), ?_, ofCircle_center _ _, ofCircle_radSq _ _, ?_⟩
  · intro s'
    obtain ⟨c, hc⟩ := hs (center s')
    have e : s' = ofCircle (T c) (k ^ 2 * (radSq s' / k ^ 2)) := by
      rw [hc, mul_div_cancel₀ _ (by positivity), hof]
    rw [e, hcost, hcost, hof]
    exact mul_le_mul_of_nonneg_left (h _) (by positivity)
  · rw [radius, ofCircle_radSq, radius, Real.sqrt_mul (by positivity), Real.sqrt_sq hk.le]

/-! ### The signed area -/

/-- Twice the area swept along a path, as seen from the origin. -/
def chain : List P2 → ℝ
  | a :: b :: l => (a.x * b.y - b.x * a.y) + chain (b :: l)
  | _ => 0

/-- The shoelace formula of the closed polygon. -/
noncomputable def shoelace : List P2 → ℝ
  | [] => 0
  | p0 :: l => chain (p0 :: (l ++ [p0])) / 2

theorem fan_chain (p0 : P2) : ∀ (l : List P2) (a : P2), fan p0 (a :: l) = chain (a :: (l ++ [p0])) + (p0.x * a.y - a.x * p0.y)
  | [], a => by simp [fan, chain]
  | b :: l, a => by
    have ih := fan_chain p0 l b
    rw [fan, ih]
    simp only [List.cons_append, chain]
    ring

/-- The code's sum of triangles at the first point is the shoelace formula of the polygon closed by a straight line. -/
theorem signedArea_shoelace (pts : List P2) : signedArea pts = shoelace pts := by
  rcases pts with _ | ⟨p0, _ | ⟨a, l⟩⟩
  · rfl
  · simp [signedArea, shoelace, fan, chain]
  · simp only [signedArea, shoelace, fan_chain, List.cons_append, chain]
    ring

theorem chain_append (a : P2) (l2 : List P2) : ∀ l1 : List P2, chain (l1 ++ a :: l2) = chain (l1 ++ [a]) + chain (a :: l2)
  | [] => by simp [chain]
  | [b] => by simp [chain]
  | b :: c :: l1 => by
    have ih := chain_append a l2 (c :: l1)
    simp only [List.cons_append, chain] at ih ⊢
    rw [ih]
    ring

theorem chain_reverse : ∀ l : List P2, chain l.reverse = - chain l
  | [] => by simp [chain]
  | [a] => by simp [chain]
  | a :: b :: l => by
    have ih := chain_reverse (b :: l)
    have e : (a :: b :: l).reverse = l.reverse ++ b :: [a] := by simp
    rw [e, chain_append]
    rw [List.reverse_cons] at ih
    rw [ih]
    simp only [chain]
    ring

theorem shoelace_rotate (p : P2) (l : List P2) : shoelace (p :: l) = shoelace (l ++ [p]) := by
  rcases l with _ | ⟨a, l⟩
  · rfl
  · simp only [shoelace, List.cons_append, List.append_assoc, List.nil_append]
    have e : a :: (l ++ [p, a]) = (a :: l) ++ p :: [a] := by simp
    rw [e, chain_append]
    simp only [chain, List.cons_append]
    ring

/-- Walking the points backwards changes the sign. -/
theorem signedArea_reverse (pts : List P2) : signedArea pts.reverse = - signedArea pts := by
  rw [signedArea_shoelace, signedArea_shoelace]
  rcases pts with _ | ⟨p, l⟩
  · simp [shoelace]
  · rw [List.reverse_cons, ← shoelace_rotate]
    have := chain_reverse (p :: (l ++ [p]))
    simp only [List.reverse_cons, List.reverse_append, List.reverse_nil, List.nil_append, List.cons_append] at this
    simp only [shoelace, this]
    ring

/-- It does not matter where on the polygon the path starts. -/
theorem signedArea_rotate (p : P2) (l : List P2) : signedArea (p :: l) = signedArea (l ++ [p]) := by
  rw [signedArea_shoelace, signedArea_shoelace, shoelace_rotate]

/-- A point of a circle. -/
noncomputable def onCircle (c : P2) (r θ : ℝ) : P2 := ⟨c.x + r * Real.cos θ, c.y + r * Real.sin θ⟩

theorem sin_sum (x y : ℝ) : Real.sin (2 * x) + Real.sin (2 * y) - Real.sin (2 * x + 2 * y) = 4 * Real.sin x * Real.sin y * Real.sin (x + y) := by
  rw [Real.sin_add (2 * x), Real.sin_two_mul, Real.sin_two_mul, Real.cos_two_mul, Real.cos_two_mul, Real.sin_add]
  have h1 := Real.sin_sq_add_cos_sq x
  have h2 := Real.sin_sq_add_cos_sq y
  linear_combination (-4 * Real.sin y * Real.cos y) * h1 - 4 * Real.sin x * Real.cos x * h2

theorem fan_increasing {c : P2} {r t0 : ℝ} (hr : 0 < r) : ∀ (l : List ℝ) (a : ℝ), t0 < a → (a :: l).IsChain (· < ·) →
    (∀ t ∈ a :: l, t < t0 + 2 * Real.pi) → 0 ≤ fan (onCircle c r t0) ((a :: l).map (onCircle c r)) ∧
      (l ≠ [] → 0 < fan (onCircle c r t0) ((a :: l).map (onCircle c r)))
  | [], a, _, _, _ => by simp [fan]
  | b :: l, a, ha, hc, hl => by
    rw [List.isChain_cons_cons] at hc
    obtain ⟨ih, _⟩ := fan_increasing hr (c := c) l b (lt_trans ha hc.1) hc.2 fun t ht => hl t (by simp [ht])
    have hb := hl b (by simp)
    have key : ((onCircle c r b).y - (onCircle c r t0).y) * ((onCircle c r a).x - (onCircle c r t0).x)
        - ((onCircle c r b).x - (onCircle c r t0).x) * ((onCircle c r a).y - (onCircle c r t0).y)
        = r ^ 2 * (4 * Real.sin ((a - t0) / 2) * Real.sin ((b - a) / 2) * Real.sin ((b - t0) / 2)) := by
      have e := sin_sum ((a - t0) / 2) ((b - a) / 2)
      have e1 : 2 * ((a - t0) / 2) = a - t0 := by ring
      have e2 : 2 * ((b - a) / 2) = b - a := by ring
      have e3 : (a - t0) + (b - a) = b - t0 := by ring
      have e4 : (a - t0) / 2 + (b - a) / 2 = (b - t0) / 2 := by ring
      rw [e1, e2, e3, e4] at e
      rw [← e, Real.sin_sub, Real.sin_sub, Real.sin_sub]
      simp only [onCircle]
      ring
    have p1 : 0 < Real.sin ((a - t0) / 2) := Real.sin_pos_of_pos_of_lt_pi (by linarith) (by linarith [hc.1])
    have p2 : 0 < Real.sin ((b - a) / 2) := Real.sin_pos_of_pos_of_lt_pi (by linarith [hc.1]) (by linarith)
    have p3 : 0 < Real.sin ((b - t0) / 2) := Real.sin_pos_of_pos_of_lt_pi (by linarith [hc.1]) (by linarith)
    have hp : 0 < fan (onCircle c r t0) ((a :: b :: l).map (onCircle c r)) := by
      simp only [List.map_cons, fan] at ih ⊢
      rw [key]
      have : 0 < r ^ 2 * (4 * Real.sin ((a - t0) / 2) * Real.sin ((b - a) / 2) * Real.sin ((b - t0) / 2)) := by positivity
      linarith
    exact ⟨hp.le, fun _ => hp⟩

/-- Three or more points in anticlockwise order, less than one turn: the area is positive. -/
theorem signedArea_anticlockwise {c : P2} {r t0 a b : ℝ} {l : List ℝ} (hr : 0 < r) (hc : (t0 :: a :: b :: l).IsChain (· < ·))
    (hl : ∀ t ∈ t0 :: a :: b :: l, t < t0 + 2 * Real.pi) : 0 < signedArea ((t0 :: a :: b :: l).map (onCircle c r)) := by
  rw [List.isChain_cons_cons] at hc
  have := (fan_increasing hr (c := c) (b :: l) a hc.1 hc.2 fun t ht => hl t (List.mem_cons_of_mem _ ht)).2 (by simp)
  rw [List.map_cons, signedArea]
  linarith

/-! ### Generated points -/

theorem initial_spec (c p0 : P2) : Real.sqrt (d2 p0 c) * Real.cos (initialAngle c p0) = p0.x - c.x ∧
    Real.sqrt (d2 p0 c) * Real.sin (initialAngle c p0) = p0.y - c.y := by
  have hn : ‖(⟨p0.x - c.x, p0.y - c.y⟩ : ℂ)‖ = Real.sqrt (d2 p0 c) := by
    rw [Complex.norm_def, Complex.normSq_mk, d2]
    congr 1
    ring
  rw [← hn]
  exact ⟨Complex.norm_mul_cos_arg _, Complex.norm_mul_sin_arg _⟩

theorem generated_mem {s : V3 ℝ} {pts : List P2} {p0 : P2} {angles : List ℝ} :
    generated s pts p0 angles = angles.map fun a => onCircle (center s) (radius s)
      (if 0 < signedArea pts then initialAngle (center s) p0 + a else initialAngle (center s) p0 - a) := rfl

/-- Generated points are on the circle. -/
theorem generated_on {s : V3 ℝ} {pts : List P2} {p0 : P2} {angles : List ℝ} : ∀ g ∈ generated s pts p0 angles,
    d2 g (center s) = radius s ^ 2 := by
  intro g hg
  rw [generated_mem] at hg
  obtain ⟨a, _, rfl⟩ := List.mem_map.1 hg
  simp only [onCircle, d2]
  generalize (if 0 < signedArea pts then initialAngle (center s) p0 + a else initialAngle (center s) p0 - a) = u
  linear_combination (radius s) ^ 2 * Real.cos_sq_add_sin_sq u

/-- The point at angle zero is the point of the circle closest to the first input point. -/
theorem generated_first {s : V3 ℝ} {pts : List P2} {p0 g q : P2} (hg : generated s pts p0 [0] = [g])
    (hq : d2 q (center s) = radius s ^ 2) : d2 g p0 ≤ d2 q p0 ∧ d2 g p0 = (Real.sqrt (d2 p0 (center s)) - radius s) ^ 2 := by
  obtain ⟨hx, hy⟩ := initial_spec (center s) p0
  have hgv : g = onCircle (center s) (radius s) (initialAngle (center s) p0) := by
    rw [generated_mem] at hg
    simp only [List.map_cons, List.map_nil, add_zero, sub_zero, ite_self, List.cons.injEq, and_true] at hg
    exact hg.symm
  have hr : 0 ≤ radius s := Real.sqrt_nonneg _
  have hD : Real.sqrt (d2 p0 (center s)) ^ 2 = d2 p0 (center s) := Real.sq_sqrt (by unfold d2; positivity)
  have hD0 := Real.sqrt_nonneg (d2 p0 (center s))
  generalize hDe : Real.sqrt (d2 p0 (center s)) = D at *
  generalize hu : initialAngle (center s) p0 = u at *
  generalize radius s = r at *
  have hcs := Real.cos_sq_add_sin_sq u
  have e : d2 g p0 = (D - r) ^ 2 := by
    rw [hgv]
    simp only [onCircle, d2]
    have e1 : (center s).x + r * Real.cos u - p0.x = (r - D) * Real.cos u := by linarith
    have e2 : (center s).y + r * Real.sin u - p0.y = (r - D) * Real.sin u := by linarith
    rw [e1, e2]
    linear_combination (r - D) ^ 2 * hcs
  refine ⟨?_, e⟩
  rw [e]
  -- Cauchy-Schwarz
  have hcsw : ((q.x - (center s).x) * (p0.x - (center s).x) + (q.y - (center s).y) * (p0.y - (center s).y)) ≤ r * D := by
    apply le_of_sq_le_sq _ (by positivity)
    have l := sq_nonneg ((q.x - (center s).x) * (p0.y - (center s).y) - (q.y - (center s).y) * (p0.x - (center s).x))
    simp only [d2] at hq hD
    have : (r * D) ^ 2 = ((q.x - (center s).x) ^ 2 + (q.y - (center s).y) ^ 2) * ((p0.x - (center s).x) ^ 2 + (p0.y - (center s).y) ^ 2) := by
      rw [hq, ← hD]; ring
    rw [this]
    nlinarith
  simp only [d2] at hq hD ⊢
  nlinarith

theorem linAngles_get {n i : Nat} (hn : 2 ≤ n) (hi : i < n) : (linAngles n)[i]? = some ((i : ℝ) * (2 * Real.pi / ((n : ℝ) - 1))) := by
  rw [linAngles, List.getElem?_map, List.getElem?_range hi]
  simp only [Option.map_some, Option.some.injEq]
  rw [if_neg (by omega)]

/-- The points are equally spaced, but the last one is the first one again, since `linspace` includes both ends:
`n_points` points are `n_points - 1` different ones. -/
theorem generated_closed {s : V3 ℝ} {pts : List P2} {p0 : P2} {n : Nat} (hn : 2 ≤ n) :
    (generated s pts p0 (linAngles n)).length = n ∧
      (generated s pts p0 (linAngles n))[n - 1]? = (generated s pts p0 (linAngles n))[0]? ∧
      ∀ i < n, (generated s pts p0 (linAngles n))[i]? = some (onCircle (center s) (radius s) (initialAngle (center s) p0
        + (if 0 < signedArea pts then 1 else -1) * ((i : ℝ) * (2 * Real.pi / ((n : ℝ) - 1))))) := by
  have hg : ∀ i < n, (generated s pts p0 (linAngles n))[i]? = some (onCircle (center s) (radius s) (initialAngle (center s) p0
        + (if 0 < signedArea pts then 1 else -1) * ((i : ℝ) * (2 * Real.pi / ((n : ℝ) - 1))))) := by
    intro i hi
    rw [generated_mem, List.getElem?_map, linAngles_get hn hi]
    simp only [Option.map_some, Option.some.injEq]
    congr 1
    split_ifs <;> ring
  refine ⟨by simp [generated_mem, linAngles], ?_, hg⟩
  rw [hg (n - 1) (by omega), hg 0 (by omega)]
  have hn1 : ((n : ℝ) - 1) ≠ 0 := by
    have : (2 : ℝ) ≤ n := by exact_mod_cast hn
    intro h
    linarith
  have e : (((n - 1 : Nat) : ℝ) * (2 * Real.pi / ((n : ℝ) - 1))) = 2 * Real.pi := by
    rw [Nat.cast_sub (by omega)]
    push_cast
    field_simp
  rw [e]
  simp only [onCircle, Nat.cast_zero, zero_mul, mul_zero, add_zero, Option.some.injEq]
  split_ifs
  · simp only [one_mul, Real.cos_add_two_pi, Real.sin_add_two_pi]
  · simp only [neg_mul, one_mul, ← sub_eq_add_neg, Real.cos_sub_two_pi, Real.sin_sub_two_pi]

theorem onCircle_initial {c p0 : P2} {r t0 x : ℝ} (hr : 0 < r) (h : p0 = onCircle c r t0) :
    onCircle c r (initialAngle c p0 + x) = onCircle c r (t0 + x) := by
  obtain ⟨hx, hy⟩ := initial_spec c p0
  have hd : Real.sqrt (d2 p0 c) = r := by
    rw [h]
    simp only [onCircle, d2]
    have : (c.x + r * Real.cos t0 - c.x) ^ 2 + (c.y + r * Real.sin t0 - c.y) ^ 2 = r ^ 2 := by
      linear_combination r ^ 2 * Real.cos_sq_add_sin_sq t0
    rw [this, Real.sqrt_sq hr.le]
  rw [hd] at hx hy
  have hx' : Real.cos (initialAngle c p0) = Real.cos t0 := by
    have : r * Real.cos (initialAngle c p0) = r * Real.cos t0 := by
      rw [hx, h]; simp [onCircle]
    exact mul_left_cancel₀ hr.ne' this
  have hy' : Real.sin (initialAngle c p0) = Real.sin t0 := by
    have : r * Real.sin (initialAngle c p0) = r * Real.sin t0 := by
      rw [hy, h]; simp [onCircle]
    exact mul_left_cancel₀ hr.ne' this
  simp only [onCircle, Real.cos_add, Real.sin_add, hx', hy']

/-- Anticlockwise points of a circle are generated again from their angles relative to the first. -/
theorem generated_back {c : P2} {r t0 a b : ℝ} {l : List ℝ} (hr : 0 < r) (hc : (t0 :: a :: b :: l).IsChain (· < ·))
    (hl : ∀ t ∈ t0 :: a :: b :: l, t < t0 + 2 * Real.pi) {s : V3 ℝ}
    (hs : IsLstsq ((t0 :: a :: b :: l).map (onCircle c r)) s) :
    center s = c ∧ radius s = r ∧
      generated s ((t0 :: a :: b :: l).map (onCircle c r)) (onCircle c r t0) ((t0 :: a :: b :: l).map (· - t0)) =
        (t0 :: a :: b :: l).map (onCircle c r) := by
  have hA := signedArea_anticlockwise hr hc hl (c := c)
  have hsp : Spread ((t0 :: a :: b :: l).map (onCircle c r)) := by
    rw [List.isChain_cons_cons] at hc
    have h2 := hc.2
    rw [List.isChain_cons_cons] at h2
    have := signedArea_anticlockwise hr (c := c) (t0 := t0) (a := a) (b := b) (l := []) (by simp [hc.1, h2.1])
      (fun t ht => hl t (by simp only [List.mem_cons, List.not_mem_nil, or_false] at ht ⊢; tauto))
    refine ⟨onCircle c r t0, by simp, onCircle c r a, by simp, onCircle c r b, by simp, ?_⟩
    simp only [List.map_cons, List.map_nil, signedArea, fan] at this
    simp only [area2]
    intro h0
    linarith
  obtain ⟨h1, h2⟩ := fit_exact hs hsp hr.le (c := c) (r := r) (by
    intro p hp
    obtain ⟨t, _, rfl⟩ := List.mem_map.1 hp
    simp only [onCircle, d2]
    linear_combination r ^ 2 * Real.cos_sq_add_sin_sq t)
  refine ⟨h1, h2, ?_⟩
  rw [generated_mem, h1, h2, List.map_map]
  apply List.map_congr_left
  intro t _
  simp only [Function.comp]
  rw [if_pos hA, onCircle_initial hr rfl]
  congr 1
  ring

/-! ### The circle in space -/

theorem complete {e0 e1 e2 : V3 ℝ} (n0 : V3.dot e0 e0 = 1) (n1 : V3.dot e1 e1 = 1) (n2 : V3.dot e2 e2 = 1)
    (o01 : V3.dot e0 e1 = 0) (o02 : V3.dot e0 e2 = 0) (o12 : V3.dot e1 e2 = 0) (v : V3 ℝ) :
    V3.dot v e0 • e0 + V3.dot v e1 • e1 + V3.dot v e2 • e2 = v := by
  simp only [V3.dot] at *
  have h : (!![e0.x, e0.y, e0.z; e1.x, e1.y, e1.z; e2.x, e2.y, e2.z] : Matrix (Fin 3) (Fin 3) ℝ)
      * !![e0.x, e1.x, e2.x; e0.y, e1.y, e2.y; e0.z, e1.z, e2.z] = 1 := by
    ext i j
    fin_cases i <;> fin_cases j <;> simp [Matrix.mul_apply, Fin.sum_univ_three] <;> linarith
  have h' := mul_eq_one_comm.1 h
  have f : ∀ i j, (!![e0.x, e1.x, e2.x; e0.y, e1.y, e2.y; e0.z, e1.z, e2.z] *
      !![e0.x, e0.y, e0.z; e1.x, e1.y, e1.z; e2.x, e2.y, e2.z] : Matrix (Fin 3) (Fin 3) ℝ) i j = (1 : Matrix (Fin 3) (Fin 3) ℝ) i j := by
    rw [h']; intro i j; rfl
  have f00 := f 0 0
  have f01 := f 0 1
  have f02 := f 0 2
  have f11 := f 1 1
  have f12 := f 1 2
  have f22 := f 2 2
  simp [Matrix.mul_apply, Fin.sum_univ_three] at f00 f01 f02 f11 f12 f22
  ext
  · simp only [V3.add_x, V3.smul_x]
    linear_combination v.x * f00 + v.y * f01 + v.z * f02
  · simp only [V3.add_y, V3.smul_y]
    linear_combination v.x * f01 + v.y * f11 + v.z * f12
  · simp only [V3.add_z, V3.smul_z]
    linear_combination v.x * f02 + v.y * f12 + v.z * f22

theorem one_or_neg {k : ℝ} (h : k ^ 2 = 1) : k = 1 ∨ k = -1 := by
  have : (k - 1) * (k + 1) = 0 := by linear_combination h
  rcases mul_eq_zero.1 this with h | h
  · left; linarith
  · right; linarith

/-- The columns of the rotation are orthonormal and right-handed. -/
theorem rotation_proper {pts : List (V3 ℝ)} {c e0 e1 e2 : V3 ℝ} {l0 l1 l2 : ℝ} (h : IsEigh pts c e0 e1 e2 l0 l1 l2) :
    V3.dot e1 e1 = 1 ∧ V3.dot e2 e2 = 1 ∧ V3.dot (normal e1 e2) (normal e1 e2) = 1 ∧ V3.dot e1 e2 = 0 ∧
      V3.dot e1 (normal e1 e2) = 0 ∧ V3.dot e2 (normal e1 e2) = 0 ∧ V3.dot (V3.cross e1 e2) (normal e1 e2) = 1 ∧
      (normal e1 e2 = e0 ∨ normal e1 e2 = -e0) := by
  have n1 := h.n1
  have n2 := h.n2
  have o12 := h.o12
  have hn : V3.dot (normal e1 e2) (normal e1 e2) = 1 := by
    simp only [V3.dot, normal, V3.cross] at *
    linear_combination (e2.x * e2.x + e2.y * e2.y + e2.z * e2.z) * n1 + n2 - (e1.x * e2.x + e1.y * e2.y + e1.z * e2.z) * o12
  have h1 : V3.dot e1 (normal e1 e2) = 0 := by simp only [V3.dot, normal, V3.cross]; ring
  have h2 : V3.dot e2 (normal e1 e2) = 0 := by simp only [V3.dot, normal, V3.cross]; ring
  refine ⟨n1, n2, hn, o12, h1, h2, hn, ?_⟩
  have e := complete h.n0 h.n1 h.n2 h.o01 h.o02 h.o12 (normal e1 e2)
  have h1' : V3.dot (normal e1 e2) e1 = 0 := by rw [← h1]; simp only [V3.dot]; ring
  have h2' : V3.dot (normal e1 e2) e2 = 0 := by rw [← h2]; simp only [V3.dot]; ring
  rw [h1', h2', zero_smul, zero_smul, add_zero, add_zero] at e
  have hk : V3.dot (normal e1 e2) e0 ^ 2 = 1 := by
    have hn' := hn
    rw [← e] at hn'
    have n0 := h.n0
    simp only [V3.dot, V3.smul_x, V3.smul_y, V3.smul_z] at hn' n0 ⊢
    generalize ((normal e1 e2).x * e0.x + (normal e1 e2).y * e0.y + (normal e1 e2).z * e0.z) = k at *
    linear_combination hn' - k ^ 2 * n0
  rcases (one_or_neg hk) with hk | hk <;> rw [hk] at e
  · left; rw [← e, one_smul]
  · right; rw [← e, neg_one_smul]

theorem cov_form (pts : List (V3 ℝ)) (c v w : V3 ℝ) :
    V3.dot (cov pts c v) w = (pts.map fun p => V3.dot (p - c) v * V3.dot (p - c) w).sum := by
  simp only [V3.dot, cov]
  rw [mul_comm _ w.x, mul_comm _ w.y, mul_comm _ w.z, ← sum_mul, ← sum_mul, ← sum_mul, ← sum_add, ← sum_add]
  apply sum_congr
  intro p _
  ring

theorem form_expand {pts : List (V3 ℝ)} {c e0 e1 e2 : V3 ℝ} {l0 l1 l2 : ℝ} (h : IsEigh pts c e0 e1 e2 l0 l1 l2) (v : V3 ℝ) :
    (pts.map fun p => V3.dot (p - c) v ^ 2).sum = l0 * V3.dot v e0 ^ 2 + l1 * V3.dot v e1 ^ 2 + l2 * V3.dot v e2 ^ 2 := by
  have e := complete h.n0 h.n1 h.n2 h.o01 h.o02 h.o12 v
  have hsum : ∀ p, V3.dot (p - c) v = V3.dot v e0 * V3.dot (p - c) e0 + V3.dot v e1 * V3.dot (p - c) e1 + V3.dot v e2 * V3.dot (p - c) e2 := by
    intro p
    conv_lhs => rw [← e]
    generalize V3.dot v e0 = a0
    generalize V3.dot v e1 = a1
    generalize V3.dot v e2 = a2
    simp only [V3.dot, V3.add_x, V3.add_y, V3.add_z, V3.smul_x, V3.smul_y, V3.smul_z]
    ring
  have hq : ∀ a ∈ [e0, e1, e2], V3.dot (cov pts c a) v = (pts.map fun p => V3.dot (p - c) a * V3.dot (p - c) v).sum :=
    fun a _ => cov_form pts c a v
  have h0 := hq e0 (by simp)
  have h1 := hq e1 (by simp)
  have h2 := hq e2 (by simp)
  rw [h.v0] at h0
  rw [h.v1] at h1
  rw [h.v2] at h2
  have hsm : ∀ (l : ℝ) (a : V3 ℝ), V3.dot (l • a) v = l * V3.dot v a := by
    intro l a
    simp only [V3.dot, V3.smul_x, V3.smul_y, V3.smul_z]
    ring
  rw [hsm] at h0 h1 h2
  have : (pts.map fun p => V3.dot (p - c) v ^ 2).sum = V3.dot v e0 * (pts.map fun p => V3.dot (p - c) e0 * V3.dot (p - c) v).sum
      + V3.dot v e1 * (pts.map fun p => V3.dot (p - c) e1 * V3.dot (p - c) v).sum
      + V3.dot v e2 * (pts.map fun p => V3.dot (p - c) e2 * V3.dot (p - c) v).sum := by
    rw [← sum_mul, ← sum_mul, ← sum_mul, ← sum_add, ← sum_add]
    apply sum_congr
    intro p _
    rw [pow_two]
    conv_lhs => rw [hsum p]
    rw [hsum p]
    ring
  rw [this, ← h0, ← h1, ← h2]
  ring

theorem centroid_zero {pts : List (V3 ℝ)} (hn : pts ≠ []) (v : V3 ℝ) :
    (pts.map fun p => V3.dot (p - centroid pts) v).sum = 0 := by
  have hl : (0 : ℝ) < pts.length := by exact_mod_cast List.length_pos_iff.2 hn
  have e : ∀ p : V3 ℝ, V3.dot (p - centroid pts) v = v.x * p.x + v.y * p.y + v.z * p.z
      + (-(V3.dot (centroid pts) v)) := by
    intro p
    simp only [V3.dot, V3.sub_x, V3.sub_y, V3.sub_z]
    ring
  simp only [e]
  rw [sum_add, sum_add, sum_add, sum_mul, sum_mul, sum_mul, sum_const]
  simp only [V3.dot, centroid]
  field_simp
  ring

/-- The plane through the centroid with the code's normal is a best fit plane: no plane has a smaller sum of squared
distances from the points. -/
theorem plane_optimal {pts : List (V3 ℝ)} {e0 e1 e2 : V3 ℝ} {l0 l1 l2 : ℝ} (hn : pts ≠ [])
    (h : IsEigh pts (centroid pts) e0 e1 e2 l0 l1 l2) {m q : V3 ℝ} (hm : V3.dot m m = 1) :
    (pts.map fun p => V3.dot (p - centroid pts) (normal e1 e2) ^ 2).sum ≤ (pts.map fun p => V3.dot (p - q) m ^ 2).sum := by
  have hl : (0 : ℝ) < pts.length := by exact_mod_cast List.length_pos_iff.2 hn
  have e : ∀ p, V3.dot (p - q) m ^ 2 = V3.dot (p - centroid pts) m ^ 2 + 2 * V3.dot (centroid pts - q) m * V3.dot (p - centroid pts) m
      + V3.dot (centroid pts - q) m ^ 2 := by
    intro p
    simp only [V3.dot, V3.sub_x, V3.sub_y, V3.sub_z]
    ring
  rw [sum_congr pts _ _ fun p _ => e p, sum_add, sum_add, sum_mul, centroid_zero hn, sum_const, form_expand h m]
  have hleft : (pts.map fun p => V3.dot (p - centroid pts) (normal e1 e2) ^ 2).sum = l0 := by
    have h0 := form_expand h e0
    rw [h.n0, h.o01, h.o02] at h0
    have : (pts.map fun p => V3.dot (p - centroid pts) (normal e1 e2) ^ 2).sum = (pts.map fun p => V3.dot (p - centroid pts) e0 ^ 2).sum := by
      apply sum_congr
      intro p _
      rcases (rotation_proper h).2.2.2.2.2.2.2 with hh | hh <;> rw [hh]
      simp only [V3.dot, V3.neg_x, V3.neg_y, V3.neg_z]
      ring
    rw [this, h0]
    ring
  rw [hleft]
  have hP : V3.dot m e0 ^ 2 + V3.dot m e1 ^ 2 + V3.dot m e2 ^ 2 = 1 := by
    have e := complete h.n0 h.n1 h.n2 h.o01 h.o02 h.o12 m
    have e' : V3.dot (V3.dot m e0 • e0 + V3.dot m e1 • e1 + V3.dot m e2 • e2) m = 1 := by rw [e, hm]
    rw [← e']
    generalize ha0 : V3.dot m e0 = a0
    generalize ha1 : V3.dot m e1 = a1
    generalize ha2 : V3.dot m e2 = a2
    simp only [V3.dot, V3.add_x, V3.add_y, V3.add_z, V3.smul_x, V3.smul_y, V3.smul_z] at ha0 ha1 ha2 ⊢
    linear_combination -a0 * ha0 - a1 * ha1 - a2 * ha2
  have h1 := h.le01
  have h2 := h.le12
  have t0 := sq_nonneg (V3.dot m e0)
  have t1 := sq_nonneg (V3.dot m e1)
  have t2 := sq_nonneg (V3.dot m e2)
  have t3 := sq_nonneg (V3.dot (centroid pts - q) m)
  have t4 : 0 ≤ (pts.length : ℝ) * V3.dot (centroid pts - q) m ^ 2 := by positivity
  have t5 : l0 * (V3.dot m e0 ^ 2 + V3.dot m e1 ^ 2 + V3.dot m e2 ^ 2) = l0 := by rw [hP, mul_one]
  have t6 := mul_nonneg (sub_nonneg.2 h1) t1
  have t7 := mul_nonneg (sub_nonneg.2 (h1.trans h2)) t2
  linarith

/-- Points of a circle in space, three of which are not on a line, give back its centre, its radius and its normal up to sign. -/
theorem fit3_exact {pts : List (V3 ℝ)} {e0 e1 e2 : V3 ℝ} {l0 l1 l2 : ℝ}
    (h : IsEigh pts (centroid pts) e0 e1 e2 l0 l1 l2) {s : V3 ℝ}
    (hs : IsLstsq (pts.map (flat (centroid pts) e1 e2)) s) {o m : V3 ℝ} {r : ℝ} (hr : 0 ≤ r) (hm : V3.dot m m = 1)
    (hplane : ∀ p ∈ pts, V3.dot (p - o) m = 0) (hcirc : ∀ p ∈ pts, V3.normSq (p - o) = r ^ 2)
    (hsp : ∃ a ∈ pts, ∃ b ∈ pts, ∃ d ∈ pts, V3.cross (b - a) (d - a) ≠ 0) :
    center3 (centroid pts) e1 e2 s = o ∧ radius s = r ∧ (normal e1 e2 = m ∨ normal e1 e2 = -m) := by
  obtain ⟨a, ha, b, hb, d, hd, hne⟩ := hsp
  have hn : pts ≠ [] := by rintro rfl; simp at ha
  have hl : (0 : ℝ) < pts.length := by exact_mod_cast List.length_pos_iff.2 hn
  obtain ⟨k1, k2, kn, k12, k1n, k2n, _, _⟩ := rotation_proper h
  -- all points are in the fitted plane
  have hle := plane_optimal hn h (q := o) hm
  have hz : (pts.map fun p => V3.dot (p - o) m ^ 2).sum = 0 := by
    rw [sum_congr pts _ (fun _ => 0) (fun p hp => by rw [hplane p hp]; ring), sum_const, mul_zero]
  rw [hz] at hle
  have hz2 := sum_zero pts _ (fun p _ => sq_nonneg (V3.dot (p - centroid pts) (normal e1 e2)))
    (le_antisymm hle (sum_nonneg _ _ fun p _ => sq_nonneg _))
  have hpl : ∀ p ∈ pts, V3.dot (p - centroid pts) (normal e1 e2) = 0 := fun p hp => pow_eq_zero_iff two_ne_zero |>.1 (hz2 p hp)
  -- the normals are parallel
  have hpar : ∀ w, (∀ p ∈ pts, ∀ q ∈ pts, V3.dot (p - q) w = 0) → V3.cross (V3.cross (b - a) (d - a)) w = 0 := by
    intro w hw
    have w1 := hw b hb a ha
    have w2 := hw d hd a ha
    simp only [V3.dot] at w1 w2
    ext <;> simp only [V3.cross, V3.zero_x, V3.zero_y, V3.zero_z]
    · linear_combination (d - a).x * w1 - (b - a).x * w2
    · linear_combination (d - a).y * w1 - (b - a).y * w2
    · linear_combination (d - a).z * w1 - (b - a).z * w2
  have dsub : ∀ p q u w : V3 ℝ, V3.dot (p - q) w = V3.dot (p - u) w - V3.dot (q - u) w := by
    intro p q u w
    simp only [V3.dot, V3.sub_x, V3.sub_y, V3.sub_z]
    ring
  have p1 := hpar m fun p hp q hq => by rw [dsub p q o, hplane p hp, hplane q hq, sub_zero]
  have p2 := hpar (normal e1 e2) fun p hp q hq => by rw [dsub p q (centroid pts), hpl p hp, hpl q hq, sub_zero]
  generalize hN : normal e1 e2 = N at *
  have hmN : N = V3.dot N m • m := by
    -- both are multiples of the same vector
    generalize V3.cross (b - a) (d - a) = w at *
    have hmw : V3.dot w m • m = w := by
      have x1 := congrArg V3.x p1
      have y1 := congrArg V3.y p1
      have z1 := congrArg V3.z p1
      simp only [V3.cross, V3.zero_x, V3.zero_y, V3.zero_z, V3.dot] at x1 y1 z1 hm
      ext <;> simp only [V3.dot, V3.smul_x, V3.smul_y, V3.smul_z]
      · linear_combination w.x * hm - m.y * z1 + m.z * y1
      · linear_combination w.y * hm - m.z * x1 + m.x * z1
      · linear_combination w.z * hm - m.x * y1 + m.y * x1
    have hk : V3.dot w m ≠ 0 := by
      intro h0
      rw [h0, zero_smul] at hmw
      exact hne hmw.symm
    have x2 := congrArg V3.x p2
    have y2 := congrArg V3.y p2
    have z2 := congrArg V3.z p2
    rw [← hmw] at x2 y2 z2
    generalize V3.dot w m = k at *
    simp only [V3.cross, V3.zero_x, V3.zero_y, V3.zero_z, V3.smul_x, V3.smul_y, V3.smul_z] at x2 y2 z2
    have x3 : m.y * N.z - m.z * N.y = 0 := by
      apply (mul_eq_zero.1 (_ : k * (m.y * N.z - m.z * N.y) = 0)).resolve_left hk
      linarith
    have y3 : m.z * N.x - m.x * N.z = 0 := by
      apply (mul_eq_zero.1 (_ : k * (m.z * N.x - m.x * N.z) = 0)).resolve_left hk
      linarith
    have z3 : m.x * N.y - m.y * N.x = 0 := by
      apply (mul_eq_zero.1 (_ : k * (m.x * N.y - m.y * N.x) = 0)).resolve_left hk
      linarith
    simp only [V3.dot] at hm
    ext <;> simp only [V3.dot, V3.smul_x, V3.smul_y, V3.smul_z]
    · linear_combination -N.x * hm - m.y * z3 + m.z * y3
    · linear_combination -N.y * hm - m.z * x3 + m.x * z3
    · linear_combination -N.z * hm - m.x * y3 + m.y * x3
  have hpm : V3.dot N m = 1 ∨ V3.dot N m = -1 := by
    apply one_or_neg
    have h1 := kn
    rw [hmN] at h1
    generalize V3.dot N m = k at *
    simp only [V3.dot, V3.smul_x, V3.smul_y, V3.smul_z] at h1 hm
    linear_combination h1 - k ^ 2 * hm
  have hNm : N = m ∨ N = -m := by
    rcases hpm with hk | hk <;> rw [hk] at hmN
    · left; rw [hmN, one_smul]
    · right; rw [hmN, neg_one_smul]
  -- the centre is in the fitted plane
  have hoN : ∀ p ∈ pts, V3.dot (p - o) N = 0 := by
    intro p hp
    have := hplane p hp
    rcases hNm with hh | hh <;> rw [hh]
    · exact this
    · simp only [V3.dot, V3.neg_x, V3.neg_y, V3.neg_z] at this ⊢
      linarith
  have hcompl := complete k1 k2 kn k12 k1n k2n
  have hoc : V3.dot (o - centroid pts) N = 0 := by
    have i1 := hpl a ha
    have i2 := hoN a ha
    simp only [V3.dot, V3.sub_x, V3.sub_y, V3.sub_z] at i1 i2 ⊢
    linarith
  -- distances in the plane are distances in space
  have hdist : ∀ p ∈ pts, d2 (flat (centroid pts) e1 e2 p) (flat (centroid pts) e1 e2 o) = r ^ 2 := by
    intro p hp
    rw [← hcirc p hp]
    have e := hcompl (p - o)
    rw [hoN p hp, zero_smul, add_zero] at e
    have e' : V3.normSq (p - o) = V3.dot (V3.dot (p - o) e1 • e1 + V3.dot (p - o) e2 • e2) (p - o) := by
      rw [e]; simp only [V3.normSq, V3.dot]
    rw [e']
    simp only [d2, flat, V3.dot, V3.sub_x, V3.sub_y, V3.sub_z, V3.add_x, V3.add_y, V3.add_z, V3.smul_x, V3.smul_y, V3.smul_z]
    ring
  have hspread : Spread (pts.map (flat (centroid pts) e1 e2)) := by
    refine ⟨_, List.mem_map_of_mem ha, _, List.mem_map_of_mem hb, _, List.mem_map_of_mem hd, ?_⟩
    have e : area2 (flat (centroid pts) e1 e2 a) (flat (centroid pts) e1 e2 b) (flat (centroid pts) e1 e2 d)
        = V3.dot (V3.cross (b - a) (d - a)) N := by
      rw [← hN]
      simp only [area2, flat, V3.dot, normal, V3.cross, V3.sub_x, V3.sub_y, V3.sub_z]
      ring
    rw [e]
    intro h0
    generalize V3.cross (b - a) (d - a) = w at *
    have x2 := congrArg V3.x p2
    have y2 := congrArg V3.y p2
    have z2 := congrArg V3.z p2
    simp only [V3.cross, V3.zero_x, V3.zero_y, V3.zero_z, V3.dot] at x2 y2 z2 kn h0
    apply hne
    ext <;> simp only [V3.zero_x, V3.zero_y, V3.zero_z]
    · linear_combination -w.x * kn + N.y * z2 - N.z * y2 + N.x * h0
    · linear_combination -w.y * kn + N.z * x2 - N.x * z2 + N.y * h0
    · linear_combination -w.z * kn + N.x * y2 - N.y * x2 + N.z * h0
  obtain ⟨hc, hrad⟩ := fit_exact hs hspread hr (c := flat (centroid pts) e1 e2 o) (by
    intro q hq
    obtain ⟨p, hp, rfl⟩ := List.mem_map.1 hq
    exact hdist p hp)
  refine ⟨?_, hrad, hNm⟩
  have e := hcompl (o - centroid pts)
  rw [hoc, zero_smul, add_zero] at e
  rw [center3, hc]
  show V3.dot (o - centroid pts) e1 • e1 + V3.dot (o - centroid pts) e2 • e2 + centroid pts = o
  rw [e]
  abel

/-- Without an offset the generated points are at the distance of the radius from the centre, in the plane of the circle. -/
theorem lift_on {pts : List (V3 ℝ)} {c e0 e1 e2 : V3 ℝ} {l0 l1 l2 : ℝ} (h : IsEigh pts c e0 e1 e2 l0 l1 l2) {s : V3 ℝ} {g : P2}
    (hg : d2 g (center s) = radius s ^ 2) :
    V3.normSq (lift c e1 e2 0 g - center3 c e1 e2 s) = radius s ^ 2 ∧
      V3.dot (lift c e1 e2 0 g - center3 c e1 e2 s) (normal e1 e2) = 0 := by
  obtain ⟨k1, k2, kn, k12, k1n, k2n, _, _⟩ := rotation_proper h
  have e : lift c e1 e2 0 g - center3 c e1 e2 s = (g.x - (center s).x) • e1 + (g.y - (center s).y) • e2 := by
    ext <;> simp [lift, center3] <;> ring
  rw [e, ← hg]
  generalize normal e1 e2 = N at *
  constructor
  · simp only [V3.normSq, V3.dot, V3.add_x, V3.add_y, V3.add_z, V3.smul_x, V3.smul_y, V3.smul_z, d2] at *
    linear_combination (g.x - (center s).x) ^ 2 * k1 + (g.y - (center s).y) ^ 2 * k2
      + 2 * (g.x - (center s).x) * (g.y - (center s).y) * k12
  · simp only [V3.normSq, V3.dot, V3.add_x, V3.add_y, V3.add_z, V3.smul_x, V3.smul_y, V3.smul_z, d2] at *
    linear_combination (g.x - (center s).x) * k1n + (g.y - (center s).y) * k2n

/-- An offset moves all points by the same vector, of the same length as the offset; an offset along z moves them along the
normal on the side of `up`. -/
theorem lift_offset {pts : List (V3 ℝ)} {c e0 e1 e2 : V3 ℝ} {l0 l1 l2 : ℝ} (h : IsEigh pts c e0 e1 e2 l0 l1 l2) (up o : V3 ℝ) :
    ∃ w : V3 ℝ, (∀ g, lift c e1 e2 (shift e1 e2 up o) g = lift c e1 e2 0 g + w) ∧ V3.normSq w = V3.normSq o ∧
      (o.x = 0 → o.y = 0 → ∃ N : V3 ℝ, (N = normal e1 e2 ∨ N = -normal e1 e2) ∧ 0 ≤ V3.dot up N ∧ w = o.z • N) := by
  obtain ⟨k1, k2, kn, k12, k1n, k2n, _, _⟩ := rotation_proper h
  refine ⟨(shift e1 e2 up o).x • e1 + (shift e1 e2 up o).y • e2 + (shift e1 e2 up o).z • normal e1 e2, ?_, ?_, ?_⟩
  · intro g
    ext <;> simp [lift] <;> ring
  · have hsq : (shift e1 e2 up o).x ^ 2 + (shift e1 e2 up o).y ^ 2 + (shift e1 e2 up o).z ^ 2 = V3.normSq o := by
      unfold shift
      split_ifs <;> simp only [V3.normSq, V3.dot] <;> ring
    rw [← hsq]
    generalize shift e1 e2 up o = t
    generalize normal e1 e2 = N at *
    simp only [V3.normSq, V3.dot, V3.add_x, V3.add_y, V3.add_z, V3.smul_x, V3.smul_y, V3.smul_z] at *
    linear_combination t.x ^ 2 * k1 + t.y ^ 2 * k2 + t.z ^ 2 * kn + 2 * t.x * t.y * k12 + 2 * t.x * t.z * k1n + 2 * t.y * t.z * k2n
  · intro hx hy
    by_cases hu : V3.dot up (normal e1 e2) < 0
    · refine ⟨-normal e1 e2, Or.inr rfl, ?_, ?_⟩
      · simp only [V3.dot, V3.neg_x, V3.neg_y, V3.neg_z] at hu ⊢
        linarith
      · unfold shift
        rw [if_pos hu]
        simp only [hx, hy]
        ext <;> simp
    · refine ⟨normal e1 e2, Or.inl rfl, not_lt.1 hu, ?_⟩
      unfold shift
      rw [if_neg hu]
      simp only [hx, hy]
      ext <;> simp

/-! ### Batches

`torch.cross` is called without `dim` (circle_fitting.py:39): it takes the first dimension of size 3.  For a batch of exactly
three point clouds that is the batch dimension. -/

/-- `torch.cross(a, b)` for `n × 3` tensors without `dim`: rows are vectors unless there are three of them. -/
def crossRows (a b : List (V3 ℚ)) : List (V3 ℚ) :=
  match a, b with
  | [a0, a1, a2], [b0, b1, b2] =>
    [⟨a1.x * b2.x - a2.x * b1.x, a1.y * b2.y - a2.y * b1.y, a1.z * b2.z - a2.z * b1.z⟩,
     ⟨a2.x * b0.x - a0.x * b2.x, a2.y * b0.y - a0.y * b2.y, a2.z * b0.z - a0.z * b2.z⟩,
     ⟨a0.x * b1.x - a1.x * b0.x, a0.y * b1.y - a1.y * b0.y, a0.z * b1.z - a1.z * b0.z⟩]
  | _, _ => List.zipWith V3.cross a b

/-- For any other number of point clouds every third column is the cross product of its own first two. -/
theorem crossRows_ok {a b : List (V3 ℚ)} (h : a.length ≠ 3) : crossRows a b = List.zipWith V3.cross a b := by
  unfold crossRows
  split
  · simp at h
  · rfl

/-- For three equal point clouds the third column is zero whatever the axes are, so the result is no rotation. -/
theorem crossRows_three (u v : V3 ℚ) : crossRows [u, u, u] [v, v, v] = [0, 0, 0] := by
  have h : ∀ a b : ℚ, a * b - a * b = 0 := fun a b => sub_self _
  simp only [crossRows, h]
  rfl

/-! ### Examples -/

/-- Points of a circle about (1, 2) with radius 5. -/
noncomputable def exPts : List P2 := [⟨6, 2⟩, ⟨1, 7⟩, ⟨-4, 2⟩, ⟨4, -2⟩]

theorem exSpread : Spread exPts :=
  ⟨⟨6, 2⟩, by simp [exPts], ⟨1, 7⟩, by simp [exPts], ⟨-4, 2⟩, by simp [exPts], by norm_num [area2]⟩

theorem exOn : ∀ p ∈ exPts, d2 p ⟨1, 2⟩ = 5 ^ 2 := by
  intro p hp
  simp only [exPts, List.mem_cons, List.not_mem_nil, or_false] at hp
  rcases hp with rfl | rfl | rfl | rfl <;> norm_num [d2]

/-- The exact circle is a solution. -/
theorem exLstsq : IsLstsq exPts ⟨2, 4, 20⟩ := by
  apply lstsq_of_normal
  intro v
  norm_num [exPts, res]

example : center ⟨2, 4, 20⟩ = ⟨1, 2⟩ ∧ radius ⟨2, 4, 20⟩ = 5 := fit_exact exLstsq exSpread (by norm_num) exOn

example (s : V3 ℝ) (h : IsLstsq exPts s) : s = ⟨2, 4, 20⟩ := (fit_unique exLstsq).2 exSpread s h

/-- Four points that are not on a circle: the fit of the corners of a rectangle and its centre. -/
example : IsLstsq [⟨2, 1⟩, ⟨-2, 1⟩, ⟨-2, -1⟩, ⟨2, -1⟩, ⟨0, 0⟩] ⟨0, 0, 4⟩ ∧ radius ⟨0, 0, 4⟩ = 2 := by
  constructor
  · apply lstsq_of_normal
    intro v
    norm_num [res]
    ring
  · norm_num [radius, radSq, center]
    rw [show (4 : ℝ) = 2 ^ 2 by norm_num]
    exact Real.sqrt_sq (by norm_num)

example : signedArea exPts = 45 ∧ signedArea exPts.reverse = -45 := by
  rw [signedArea_reverse]
  norm_num [exPts, signedArea, fan]

example : (generated ⟨2, 4, 20⟩ exPts ⟨6, 2⟩ (linAngles 5))[4]? = (generated ⟨2, 4, 20⟩ exPts ⟨6, 2⟩ (linAngles 5))[0]? :=
  (generated_closed (by norm_num)).2.1

/-- The unit circle in the plane z = 1, seen from its centroid. -/
theorem exEigh : IsEigh [⟨1, 0, 1⟩, ⟨0, 1, 1⟩, ⟨-1, 0, 1⟩, ⟨0, -1, 1⟩] ⟨0, 0, 1⟩ ⟨0, 0, 1⟩ ⟨1, 0, 0⟩ ⟨0, 1, 0⟩ 0 2 2 := by
  constructor <;> first | (norm_num [V3.dot]; done) | (ext <;> norm_num [cov, V3.dot])

example : normal (⟨1, 0, 0⟩ : V3 ℝ) ⟨0, 1, 0⟩ = ⟨0, 0, 1⟩ ∧ shift ⟨1, 0, 0⟩ ⟨0, 1, 0⟩ ⟨0, 0, -1⟩ ⟨1, 2, 3⟩ = ⟨1, -2, -3⟩ := by
  constructor
  · ext <;> norm_num [normal, V3.cross]
  · norm_num [shift, normal, V3.cross, V3.dot]

end P3D.CircleFit
