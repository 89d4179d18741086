/-
C39: emission-absorption raymarching: transmittance, weights, opacity, thickness.
-/
import Verif.Raymarching
import Mathlib.Algebra.Order.BigOperators.Group.List
import Mathlib.Algebra.BigOperators.Ring.List
import Mathlib.Algebra.Order.Field.Basic
import Mathlib.Data.Rat.Floor
import Mathlib.Tactic.Ring
import Mathlib.Tactic.Linarith
import Mathlib.Tactic.Positivity

set_option linter.unusedSectionVars false

namespace P3D.Raymarching

variable {R : Type*} [Field R]

/-! ### Specification -/

/-- Light left in front of point `k` when only the points up to distance `s` in front of it absorb:
the product of `1 + eps - d_j` over `j + s ≤ k`. -/
def transmittance (s : Nat) (eps : R) (d : List R) (k : Nat) : R :=
  ((d.take (k + 1 - s)).map fun x => 1 + eps - x).prod

/-- Documented weight of point `k`. -/
def weight (s : Nat) (eps : R) (d : List R) (k : Nat) : R :=
  d.getD k 0 * transmittance s eps d k

/-! ### The shifted cumulative product -/

theorem length_cumprodFrom (a : R) (l : List R) : (cumprodFrom a l).length = l.length := by
  induction l generalizing a with
  | nil => rfl
  | cons x l ih => simp [cumprodFrom, ih]

theorem getElem?_cumprodFrom (a : R) (l : List R) (k : Nat) (h : k < l.length) :
    (cumprodFrom a l)[k]? = some (a * (l.take (k + 1)).prod) := by
  induction l generalizing a k with
  | nil => simp at h
  | cons x l ih =>
    cases k with
    | zero => simp [cumprodFrom]
    | succ k =>
      simp only [cumprodFrom, List.getElem?_cons_succ, List.take_succ_cons, List.prod_cons]
      rw [ih _ _ (by simpa using h)]
      simp [mul_assoc]

theorem length_shiftedCumprod (l : List R) {shift : Int} (h : shift ≠ 0) :
    (shiftedCumprod l shift).length = l.length := by
  have hl : (cumprod l).length = l.length := length_cumprodFrom _ _
  unfold shiftedCumprod prefixSlice
  rcases lt_or_gt_of_ne h with h | h
  · rw [if_pos h, if_neg (by omega)]
    simp only [List.length_append, List.length_map, List.length_take, hl]
    omega
  · rw [if_neg (by omega), if_pos (by omega)]
    simp only [List.length_append, List.length_map, List.length_take, hl]
    omega

theorem getElem?_shiftedCumprod (l : List R) (s : Nat) (hs : 0 < s) (k : Nat) (hk : k < l.length) :
    (shiftedCumprod l (s : Int))[k]? = some ((l.take (k + 1 - s)).prod) := by
  have hl : (cumprod l).length = l.length := length_cumprodFrom _ _
  unfold shiftedCumprod prefixSlice
  rw [if_neg (by omega), if_pos (by omega)]
  by_cases h : k < s
  · rw [List.getElem?_append_left (by simp [hl]; omega)]
    rw [show k + 1 - s = 0 by omega]
    simp [hl, h, hk]
  · rw [List.getElem?_append_right (by simp [hl]; omega)]
    have hlen : (List.map (fun _ => (1 : R)) (List.take (s : Int).toNat (cumprod l))).length = s := by
      simp [hl]; omega
    rw [hlen, List.getElem?_take_of_lt (by simp [hl]; omega), cumprod,
      getElem?_cumprodFrom _ _ _ (by omega), one_mul]
    congr 3
    omega

theorem bmul_eq {a b : List R} (h : a.length = b.length) :
    bmul a b = .ok (List.zipWith (· * ·) a b) := by unfold bmul; exact if_pos h

/-- **C39 (weights).** For every thickness `s ≥ 1` the weights are the documented ones: point `k`
is attenuated by the points at distance at least `s` in front of it, and by no other. -/
theorem eaWeights_eq (s : Nat) (hs : 0 < s) (eps : R) (d : List R) :
    eaWeights (s : Int) eps d = .ok ((List.range d.length).map (weight s eps d)) := by
  have hlen := length_shiftedCumprod (d.map fun x => (1 + eps) - x) (shift := (s : Int)) (by omega)
  rw [List.length_map] at hlen
  rw [eaWeights, bmul_eq hlen.symm]
  congr 1
  apply List.ext_getElem?
  intro k
  by_cases hk : k < d.length
  · have := getElem?_shiftedCumprod (d.map fun x => (1 + eps) - x) s hs k (by simpa using hk)
    simp only [List.getElem?_zipWith, this, List.getElem?_map, List.getElem?_range hk,
      Option.map_some, weight, transmittance, List.getD, List.getElem?_eq_getElem hk,
      Option.getD_some, List.map_take]
  · rw [List.getElem?_eq_none (by simp; omega), List.getElem?_eq_none (by simp; omega)]

/-- **C39 (rendering).** The rendered feature is the weighted sum of the point features; the
opacity is `1 - Π (1 - d)`, the same as that of the absorption-only raymarcher. -/
theorem eaForward_eq (s : Nat) (hs : 0 < s) (eps : R) {d f : List R} (hd : d ≠ [])
    (hf : f.length = d.length) :
    eaForward (s : Int) eps d f =
      .ok (((List.range d.length).map fun k => weight s eps d k * f.getD k 0).sum, opacity d) ∧
    aoForward d = .ok (opacity d) := by
  have he : d.isEmpty = false := by simpa using hd
  constructor
  · unfold eaForward
    rw [he, eaWeights_eq s hs]
    simp only [Bool.false_eq_true, if_false]
    have : bmul ((List.range d.length).map (weight s eps d)) f = .ok ((List.range d.length).map
        fun k => weight s eps d k * f.getD k 0) := by
      rw [bmul_eq (by simp [hf])]
      congr 1
      apply List.ext_getElem?
      intro k
      by_cases hk : k < d.length
      · simp [hk, hf]
      · rw [List.getElem?_eq_none (by simp; omega), List.getElem?_eq_none (by simp; omega)]
    show (bmul ((List.range d.length).map (weight s eps d)) f >>= fun wf =>
      Except.ok (wf.sum, opacity d)) = _
    rw [this]
    rfl
  · rw [aoForward, he]; rfl

/-! ### Sum of the weights -/

theorem transmittance_succ (eps : R) (d : List R) (k : Nat) (hk : k < d.length) :
    transmittance 1 eps d (k + 1) = transmittance 1 eps d k * (1 + eps - d.getD k 0) := by
  unfold transmittance
  simp only [Nat.add_sub_cancel]
  rw [List.take_add_one, List.getElem?_eq_getElem hk]
  simp [List.getD, hk]

/-- Telescoping: with thickness 1 the first `m` weights sum to what has been absorbed, plus the
contribution of `eps`. -/
theorem sum_weights_take (eps : R) (d : List R) (m : Nat) (hm : m ≤ d.length) :
    ((List.range m).map (weight 1 eps d)).sum
      = 1 - transmittance 1 eps d m + eps * ((List.range m).map (transmittance 1 eps d)).sum := by
  induction m with
  | zero => simp [transmittance]
  | succ m ih =>
    rw [List.range_succ, List.map_append, List.sum_append, ih (by omega), List.map_append,
      List.sum_append, transmittance_succ _ _ _ (by omega)]
    simp only [List.map_cons, List.map_nil, List.sum_cons, List.sum_nil, weight]
    ring

theorem transmittance_length (eps : R) (d : List R) :
    transmittance 1 eps d d.length = (d.map fun x => 1 + eps - x).prod := by
  simp [transmittance]

/-- **C39 (sum).** With thickness 1 and `eps = 0` the weights sum to the returned opacity. -/
theorem sum_weights_eq_opacity (d : List R) :
    ((List.range d.length).map (weight 1 0 d)).sum = opacity d := by
  rw [sum_weights_take 0 d _ (le_refl _), transmittance_length, opacity]
  simp

/-- **C39 (sum, any eps).** Exact value of the sum of the weights. -/
theorem sum_weights_eps (eps : R) (d : List R) :
    ((List.range d.length).map (weight 1 eps d)).sum = 1 - (d.map fun x => 1 + eps - x).prod
      + eps * ((List.range d.length).map (transmittance 1 eps d)).sum := by
  rw [sum_weights_take eps d _ (le_refl _), transmittance_length]

section Ordered
variable [LinearOrder R] [IsStrictOrderedRing R]

theorem prod_nonneg' {l : List R} (h : ∀ x ∈ l, 0 ≤ x) : 0 ≤ l.prod := by
  induction l with
  | nil => simp
  | cons a l ih =>
    rw [List.prod_cons]
    exact mul_nonneg (h a (by simp)) (ih fun x hx => h x (by simp [hx]))

theorem prod_le_prod' {α : Type*} {l : List α} {f g : α → R} (h0 : ∀ x ∈ l, 0 ≤ f x)
    (h : ∀ x ∈ l, f x ≤ g x) : (l.map f).prod ≤ (l.map g).prod := by
  induction l with
  | nil => simp
  | cons a l ih =>
    simp only [List.map_cons, List.prod_cons]
    apply mul_le_mul (h a (by simp)) (ih (fun x hx => h0 x (by simp [hx]))
      fun x hx => h x (by simp [hx])) (prod_nonneg' ?_) ((h0 a (by simp)).trans (h a (by simp)))
    intro x hx
    obtain ⟨y, hy, rfl⟩ := List.mem_map.mp hx
    exact h0 y (by simp [hy])

theorem transmittance_nonneg (s : Nat) {eps : R} (he : 0 ≤ eps) {d : List R} (hd : ∀ x ∈ d, x ≤ 1)
    (k : Nat) : 0 ≤ transmittance s eps d k := by
  apply prod_nonneg'
  intro x hx
  obtain ⟨y, hy, rfl⟩ := List.mem_map.mp hx
  linarith [hd y (List.mem_of_mem_take hy)]

theorem getD_mem_or {d : List R} {P : R → Prop} (h0 : P 0) (hd : ∀ x ∈ d, P x) (k : Nat) :
    P (d.getD k 0) := by
  by_cases hk : k < d.length
  · simp only [List.getD, List.getElem?_eq_getElem hk, Option.getD_some]
    exact hd _ (List.getElem_mem hk)
  · simpa [List.getD, hk] using h0

/-- **C39 (non-negative).** For densities in [0,1] all weights are non-negative. -/
theorem weight_nonneg (s : Nat) {eps : R} (he : 0 ≤ eps) {d : List R}
    (hd : ∀ x ∈ d, 0 ≤ x ∧ x ≤ 1) (k : Nat) : 0 ≤ weight s eps d k :=
  mul_nonneg (getD_mem_or (P := fun x : R => (0 : R) ≤ x) (le_refl _) (fun x hx => (hd x hx).1) k)
    (transmittance_nonneg s he (fun x hx => (hd x hx).2) k)

/-- **C39 (opacity).** The opacity of densities in [0,1] is in [0,1], is at least every density,
and adding material anywhere never decreases it. -/
theorem opacity_mem {d : List R} (hd : ∀ x ∈ d, 0 ≤ x ∧ x ≤ 1) :
    0 ≤ opacity d ∧ opacity d ≤ 1 := by
  have h0 : 0 ≤ (d.map fun x => 1 - x).prod := prod_nonneg' fun x hx => by
    obtain ⟨y, hy, rfl⟩ := List.mem_map.mp hx; linarith [(hd y hy).2]
  have h1 : (d.map fun x => 1 - x).prod ≤ (d.map fun _ => (1 : R)).prod :=
    prod_le_prod' (fun x hx => by linarith [(hd x hx).2]) fun x hx => by linarith [(hd x hx).1]
  simp only [List.map_const', List.prod_replicate, one_pow] at h1
  constructor <;> rw [opacity] <;> linarith

theorem opacity_mono {d d' : List R} (hl : d.length = d'.length) (hd' : ∀ x ∈ d', x ≤ 1)
    (h : ∀ k, k < d.length → d.getD k 0 ≤ d'.getD k 0) : opacity d ≤ opacity d' := by
  have e : ∀ l : List R, (l.map fun x => 1 - x) = (List.range l.length).map fun k => 1 - l.getD k 0 := by
    intro l
    apply List.ext_getElem?
    intro k
    by_cases hk : k < l.length
    · simp [hk]
    · rw [List.getElem?_eq_none (by simp; omega), List.getElem?_eq_none (by simp; omega)]
  rw [opacity, opacity, e d, e d', hl]
  have := prod_le_prod' (l := List.range d'.length) (f := fun k => 1 - d'.getD k 0)
    (g := fun k => 1 - d.getD k 0) (fun k hk => by
      have := getD_mem_or (P := fun x => x ≤ 1) zero_le_one hd' k
      linarith) (fun k hk => by
      have := h k (by rw [hl]; exact List.mem_range.mp hk)
      linarith)
  linarith

theorem opacity_perm {d d' : List R} (h : d.Perm d') : opacity d = opacity d' := by
  rw [opacity, opacity, (h.map _).prod_eq]

/-- **C39 (eps).** With `eps ≥ 0` the weights sum to at least the opacity and to at most
`(1 + eps)^n`. -/
theorem sum_weights_bounds {eps : R} (he : 0 ≤ eps) {d : List R} (hd : ∀ x ∈ d, 0 ≤ x ∧ x ≤ 1) :
    opacity d ≤ ((List.range d.length).map (weight 1 eps d)).sum ∧
    ((List.range d.length).map (weight 1 eps d)).sum ≤ (1 + eps) ^ d.length := by
  constructor
  · rw [← sum_weights_eq_opacity]
    apply List.sum_le_sum
    intro k _
    apply mul_le_mul_of_nonneg_left _
      (getD_mem_or (P := fun x : R => (0 : R) ≤ x) (le_refl _) (fun x hx => (hd x hx).1) k)
    exact prod_le_prod' (fun x hx => by linarith [(hd x (List.mem_of_mem_take hx)).2])
      fun x _ => by linarith
  · rw [sum_weights_eps]
    have hT : ∀ k, k ≤ d.length → transmittance 1 eps d k ≤ (1 + eps) ^ k := by
      intro k hk
      have : transmittance 1 eps d k ≤ ((d.take (k + 1 - 1)).map fun _ => 1 + eps).prod :=
        prod_le_prod' (fun x hx => by linarith [(hd x (List.mem_of_mem_take hx)).2])
          fun x hx => by linarith [(hd x (List.mem_of_mem_take hx)).1]
      simpa [hk] using this
    have hsum : ∀ m, m ≤ d.length → eps * ((List.range m).map (transmittance 1 eps d)).sum
        ≤ (1 + eps) ^ m - 1 := by
      intro m
      induction m with
      | zero => simp
      | succ m ih =>
        intro hm
        rw [List.range_succ, List.map_append, List.sum_append, mul_add]
        have h1 := ih (by omega)
        have h2 := mul_le_mul_of_nonneg_left (hT m (by omega)) he
        simp only [List.map_cons, List.map_nil, List.sum_cons, List.sum_nil, add_zero, pow_succ]
        linarith
    have h1 := hsum _ (le_refl _)
    have h2 := transmittance_nonneg 1 he (fun x hx => (hd x hx).2) d.length
    rw [transmittance_length] at h2
    linarith

end Ordered

/-- **C39 (binary density).** With `eps = 0` and densities 0 or 1, a point has weight 1 exactly
when it is solid and every solid point in front of it is closer than `s`; all other weights are 0.
With thickness 1 only the first solid point contributes. -/
theorem weight_binary (s : Nat) {d : List R} (hd : ∀ x ∈ d, x = 0 ∨ x = 1) (k : Nat) :
    ((d.getD k 0 = 1 ∧ ∀ j, j + s ≤ k → d.getD j 0 = 0) → weight s 0 d k = 1) ∧
    (¬ (d.getD k 0 = 1 ∧ ∀ j, j + s ≤ k → d.getD j 0 = 0) → weight s 0 d k = 0) := by
  constructor
  · rintro ⟨h1, h2⟩
    rw [weight, h1, one_mul, transmittance]
    apply List.prod_eq_one
    intro x hx
    obtain ⟨y, hy, rfl⟩ := List.mem_map.mp hx
    obtain ⟨j, hj, rfl⟩ := List.mem_iff_getElem.mp hy
    rw [List.length_take] at hj
    have := h2 j (by omega)
    have hjd : j < d.length := by omega
    simp only [List.getD, List.getElem?_eq_getElem hjd, Option.getD_some] at this
    simp [this]
  · intro h
    by_cases h1 : d.getD k 0 = 1
    · have hk : k < d.length := by
        by_contra hk
        simp [List.getD, hk] at h1
      have : ∃ j, j + s ≤ k ∧ d.getD j 0 ≠ 0 := by
        by_contra hc
        push Not at hc
        exact h ⟨h1, hc⟩
      obtain ⟨j, hj, hne⟩ := this
      have hjd : j < d.length := by omega
      have hone : d[j] = 1 := by
        have hm := hd d[j] (List.getElem_mem hjd)
        rcases hm with h0 | h0
        · simp [List.getD, hjd, h0] at hne
        · exact h0
      rw [weight, transmittance, List.prod_eq_zero, mul_zero]
      refine List.mem_map.mpr ⟨d[j], ?_, by rw [hone]; ring⟩
      have hjt : j < (d.take (k + 1 - s)).length := by rw [List.length_take]; omega
      have : (d.take (k + 1 - s))[j] = d[j] := List.getElem_take
      rw [← this]
      exact List.getElem_mem hjt
    · have hz : d.getD k 0 = 0 :=
        (getD_mem_or' (P := fun x => x = 0 ∨ x = 1) (Or.inl rfl) hd k).resolve_right h1
      rw [weight, hz, zero_mul]
where
  getD_mem_or' {P : R → Prop} {d : List R} (h0 : P 0) (hd : ∀ x ∈ d, P x) (k : Nat) :
      P (d.getD k 0) := by
    by_cases hk : k < d.length
    · simp only [List.getD, List.getElem?_eq_getElem hk, Option.getD_some]
      exact hd _ (List.getElem_mem hk)
    · simpa [List.getD, hk] using h0

/-- **C39 (thickness 0).** `surface_thickness = 0` makes the absorption an empty tensor: rays with
at least two points raise, and a ray with one point silently renders feature 0. -/
theorem thickness_zero (eps : R) (d f : List R) :
    (2 ≤ d.length → eaForward 0 eps d f = .error .broadcast) ∧
    (d.length = 1 → f.length = 1 → eaForward 0 eps d f = .ok (0, opacity d)) := by
  have hnil : ∀ l : List R, shiftedCumprod l 0 = [] := by
    intro l; simp [shiftedCumprod, prefixSlice]
  constructor
  · intro h
    match d, h with
    | a :: b :: t, _ =>
      simp [eaForward, eaWeights, hnil, bmul]
      rfl
  · intro h hf
    match d, h, f, hf with
    | [a], _, [b], _ =>
      simp [eaForward, eaWeights, hnil, bmul]
      rfl

/-- **C39 (negative thickness).** A thickness `-s` with `0 < s ≤ n` is accepted, and leaves the first
`n - s` points unattenuated while the last `s` are attenuated by the *first* points of the ray. -/
theorem thickness_negative (l : List R) (s : Nat) (hs : 0 < s) (hn : s ≤ l.length) (k : Nat)
    (hk : k < l.length) :
    (shiftedCumprod l (-(s : Int)))[k]? = some
      (if k < l.length - s then 1 else (l.take (k - (l.length - s) + 1)).prod) := by
  have hl : (cumprod l).length = l.length := length_cumprodFrom _ _
  unfold shiftedCumprod prefixSlice
  rw [if_pos (by omega), if_neg (by omega)]
  have hlen : (List.map (fun _ => (1 : R)) (List.take ((cumprod l).length - (-(s : Int)).natAbs)
      (cumprod l))).length = l.length - s := by simp [hl]
  by_cases h : k < l.length - s
  · rw [if_pos h, List.getElem?_append_left (by omega)]
    simp [hl, h]
  · rw [if_neg h, List.getElem?_append_right (by omega), hlen,
      List.getElem?_take_of_lt (by simp; omega), cumprod,
      getElem?_cumprodFrom _ _ _ (by omega), one_mul]

/-! ### Concrete cases -/

example : eaForward 1 (0 : ℚ) [1/2, 1/2, 1] [8, 4, 12] = .ok (8, 1) := by decide +kernel
example : eaForward 2 (0 : ℚ) [0, 1, 1, 1] [8, 4, 12, 5] = .ok (16, 1) := by decide +kernel
example : eaWeights 1 (1/10 : ℚ) [1, 1, 1] = .ok [1, 1/10, 1/100] := by decide +kernel
example : eaForward 0 (0 : ℚ) [1, 1] [8, 4] = .error .broadcast := by decide +kernel
example : shiftedCumprod [2, 3, 5, (7 : ℚ)] (-2) = [1, 1, 2, 6] := by decide +kernel

end P3D.Raymarching
