/-
C35: alpha compositing is the front-to-back "over" operator; its gradient; CPU = CUDA.
-/
import Verif.Compositing
import Mathlib.Tactic.Ring
import Mathlib.Tactic.Linarith
import Mathlib.Tactic.FieldSimp
import Mathlib.Data.Rat.Defs
import Mathlib.Algebra.Order.Ring.Rat
import Mathlib.Data.List.Induction

set_option linter.unusedSectionVars false

namespace P3D.Compositing
open P3D.Scatter P3D.Chunks

variable {R : Type*} [Field R]

/-! ### Specification -/

/-- The "over" operator on a front-to-back list of (opacity, colour) layers: the first layer covers
a fraction `a` of what lies behind it. -/
def over : List (R × R) → R
  | [] => 0
  | (a, f) :: rest => a * f + (1 - a) * over rest

/-- Fraction of light passing through all layers. -/
def transmitted (l : List (R × R)) : R := (l.map fun c => 1 - c.1).prod

/-- The slots of a pixel that hold a point, in order. -/
def Px.valid (p : Px R) (ks : List Nat) : List Nat := ks.filter fun k => !decide (p.idx k < 0)

/-- The (opacity, colour) layers of the given slots. -/
def Px.layers (p : Px R) (ks : List Nat) : List (R × R) :=
  (p.valid ks).map fun k => (p.al k, p.f (p.idx k).toNat)

/-- The scalar loss whose gradient the backward pass is asked for. -/
def loss (F : Px R → List R) (x : In R) (gout : Ix → R) : R :=
  ((pixels x.B x.C x.H x.W).map fun p => gout p * (F (x.px p)).sum).sum

/-! ### Algebra of `over` -/

theorem over_append (a b : List (R × R)) : over (a ++ b) = over a + transmitted a * over b := by
  induction a with
  | nil => simp [over, transmitted]
  | cons c a ih =>
    obtain ⟨x, f⟩ := c
    simp only [List.cons_append, over, ih, transmitted, List.map_cons, List.prod_cons]
    ring

theorem transmitted_append (a b : List (R × R)) :
    transmitted (a ++ b) = transmitted a * transmitted b := by
  simp [transmitted]

theorem valid_append (p : Px R) (a b : List Nat) : p.valid (a ++ b) = p.valid a ++ p.valid b := by
  simp [Px.valid]

theorem layers_append (p : Px R) (a b : List Nat) :
    p.layers (a ++ b) = p.layers a ++ p.layers b := by
  simp [Px.layers, valid_append]

theorem layers_single_valid (p : Px R) (k : Nat) (h : ¬ p.idx k < 0) :
    p.layers [k] = [(p.al k, p.f (p.idx k).toNat)] := by
  simp [Px.layers, Px.valid, h]

theorem layers_single_invalid (p : Px R) (k : Nat) (h : p.idx k < 0) : p.layers [k] = [] := by
  simp [Px.layers, Px.valid, h]

/-! ### Forward -/

theorem acStep_foldl (p : Px R) (ks : List Nat) :
    (ks.foldl (acStep p) ([], 1)).1.sum = over (p.layers ks) ∧
    (ks.foldl (acStep p) ([], 1)).2 = transmitted (p.layers ks) := by
  induction ks using List.reverseRecOn with
  | nil => simp [over, transmitted, Px.layers, Px.valid]
  | append_singleton ks k ih =>
    rw [List.foldl_append, List.foldl_cons, List.foldl_nil, layers_append, over_append,
      transmitted_append, ← ih.1, ← ih.2]
    generalize ks.foldl (acStep p) ([], 1) = s
    by_cases h : p.idx k < 0
    · simp [acStep, h, layers_single_invalid, over, transmitted]
    · rw [layers_single_valid p k h]
      simp only [acStep, h, if_false, List.sum_append, List.sum_singleton, over, transmitted,
        List.map_cons, List.map_nil, List.prod_singleton]
      refine ⟨by ring, trivial⟩

theorem acForward_sum (p : Px R) : (acForward p).sum = over (p.layers (List.range p.K)) :=
  (acStep_foldl p _).1

/-! ### Sums of contributions -/

theorem scatterAdd_flatMap {α ι : Type*} [DecidableEq ι] (l : List α) (h : α → List (ι × R))
    (i : ι) : scatterAdd (l.flatMap h) i = (l.map fun a => scatterAdd (h a) i).sum := by
  induction l with
  | nil => simp [scatterAdd]
  | cons a l ih => simp only [List.flatMap_cons, scatterAdd_append, ih, List.map_cons, List.sum_cons]

theorem scatterAdd_map_const {ι : Type*} [DecidableEq ι] (i i' : ι) (vs : List R) :
    scatterAdd (vs.map fun v => (i, v)) i' = if i = i' then vs.sum else 0 := by
  induction vs with
  | nil => simp [scatterAdd]
  | cons v vs ih =>
    rw [List.map_cons, scatterAdd_cons, ih]
    by_cases h : i = i' <;> simp [h]

theorem mem_pixels {B C H W b c j i : Nat} :
    (b, c, j, i) ∈ pixels B C H W ↔ b < B ∧ c < C ∧ j < H ∧ i < W := by
  simp only [pixels, List.mem_flatMap, List.mem_range, List.mem_map, Prod.mk.injEq]
  constructor
  · rintro ⟨_, h1, _, h2, _, h3, _, h4, rfl, rfl, rfl, rfl⟩; exact ⟨h1, h2, h3, h4⟩
  · rintro ⟨h1, h2, h3, h4⟩; exact ⟨b, h1, c, h2, j, h3, i, h4, rfl, rfl, rfl, rfl⟩

theorem nodup_pixels (B C H W : Nat) : (pixels B C H W).Nodup := by
  have aux : ∀ {α : Type} (n : Nat) (f : Nat → List α) , (∀ k < n, (f k).Nodup) →
      (∀ a b x, x ∈ f a → x ∈ f b → a = b) → ((List.range n).flatMap f).Nodup := by
    intro α n f h1 h2
    rw [List.nodup_flatMap]
    refine ⟨fun k hk => h1 k (List.mem_range.mp hk), ?_⟩
    apply List.nodup_range.pairwise_of_forall_ne
    intro a _ b _ hab x hx hy
    exact hab (h2 a b x hx hy)
  unfold pixels
  refine aux _ _ (fun b _ => aux _ _ (fun c _ => aux _ _ (fun j _ => ?_) ?_) ?_) ?_
  · exact List.nodup_range.map (fun a b h => by simpa using h)
  · intro a b x hx hy
    simp only [List.mem_map] at hx hy
    obtain ⟨_, _, rfl⟩ := hx; obtain ⟨_, _, h⟩ := hy
    simp only [Prod.mk.injEq] at h; exact h.2.2.1.symm
  · intro a b x hx hy
    simp only [List.mem_flatMap, List.mem_map] at hx hy
    obtain ⟨_, _, _, _, rfl⟩ := hx; obtain ⟨_, _, _, _, h⟩ := hy
    simp only [Prod.mk.injEq] at h; exact h.2.1.symm
  · intro a b x hx hy
    simp only [List.mem_flatMap, List.mem_map] at hx hy
    obtain ⟨_, _, _, _, _, _, rfl⟩ := hx; obtain ⟨_, _, _, _, _, _, h⟩ := hy
    simp only [Prod.mk.injEq] at h; exact h.1.symm

theorem sum_map_ite_eq {α : Type*} [DecidableEq α] (l : List α) (hl : l.Nodup) (a : α)
    (v : α → R) : (l.map fun x => if x = a then v x else 0).sum = if a ∈ l then v a else 0 := by
  induction l with
  | nil => simp
  | cons b l ih =>
    rw [List.nodup_cons] at hl
    rw [List.map_cons, List.sum_cons, ih hl.2]
    by_cases h : b = a
    · subst h; simp [hl.1]
    · have h' : ¬ a = b := fun e => h e.symm
      simp [h, h']

/-- A forward tensor: inside the image each entry is the sum of its pixel's contributions. -/
theorem cpuForward_apply (F : Px R → List R) (x : In R) (p : Ix) :
    cpuForward F x p = if p ∈ pixels x.B x.C x.H x.W then (F (x.px p)).sum else 0 := by
  rw [cpuForward, fwdContribs, scatterAdd_flatMap]
  simp only [scatterAdd_map_const]
  rw [sum_map_ite_eq _ (nodup_pixels _ _ _ _) p fun p => (F (x.px p)).sum]
  congr

/-- **C35 (value).** The output at every pixel and channel is the "over" of the pixel's layers,
front to back, skipping the slots without a point. -/
theorem alphaComposite_eq_over (x : In R) {b c j i : Nat} (hb : b < x.B) (hc : c < x.C)
    (hj : j < x.H) (hi : i < x.W) :
    cpuForward acForward x (b, c, j, i)
      = over ((x.px (b, c, j, i)).layers (List.range x.K)) := by
  rw [cpuForward_apply, if_pos (mem_pixels.mpr ⟨hb, hc, hj, hi⟩), acForward_sum]
  rfl

/-- The documented weights `a_k * ∏_{l<k} (1 - a_l)`. -/
def weights : List (R × R) → List R
  | [] => []
  | (a, _) :: rest => a :: (weights rest).map ((1 - a) * ·)

/-- "over" is the weighted sum of the colours with the documented weights. -/
theorem over_eq_weights (l : List (R × R)) :
    over l = (List.zipWith (fun w c => w * c.2) (weights l) l).sum := by
  have key : ∀ (l : List (R × R)) (m : R),
      (List.zipWith (fun w c => w * c.2) ((weights l).map (m * ·)) l).sum = m * over l := by
    intro l
    induction l with
    | nil => intro m; simp [weights, over]
    | cons c l ih =>
      obtain ⟨a, f⟩ := c
      intro m
      have := ih (m * (1 - a))
      simp only [weights, List.map_cons, List.map_map, List.zipWith_cons_cons, List.sum_cons, over]
      rw [show ((fun x => m * x) ∘ fun x => (1 - a) * x) = (fun x => m * (1 - a) * x) by
        funext x; simp [Function.comp]; ring, this]
      ring
  have := key l 1
  simpa using this.symm

/-- **C35 (total weight).** The weights add up to `1 - ∏ (1 - a_k)`. -/
theorem sum_weights (l : List (R × R)) : (weights l).sum = 1 - transmitted l := by
  induction l with
  | nil => simp [weights, transmitted]
  | cons c l ih =>
    obtain ⟨a, f⟩ := c
    have e : ((weights l).map ((1 - a) * ·)).sum = (1 - a) * (weights l).sum :=
      List.sum_map_mul_left (weights l) (fun x => x) (1 - a) |>.trans (by simp)
    simp only [weights, List.sum_cons, e, ih, transmitted, List.map_cons, List.prod_cons]
    ring

/-- **C35 (occlusion).** Whatever lies behind an opaque layer does not matter. -/
theorem over_opaque (pre post post' : List (R × R)) (f : R) :
    over (pre ++ (1, f) :: post) = over (pre ++ (1, f) :: post') := by
  simp [over_append, over]

/-- **C35 (occlusion), for the code.** If slot `t` holds an opaque point, the output does not
depend on the later slots. -/
theorem alphaComposite_opaque (x y : In R) {b c j i t : Nat} (hb : b < x.B) (hc : c < x.C)
    (hj : j < x.H) (hi : i < x.W) (hs : y.B = x.B ∧ y.C = x.C ∧ y.H = x.H ∧ y.W = x.W)
    (hf : y.features = x.features) (htx : t < x.K) (hty : t < y.K)
    (hv : 0 ≤ x.pidx (b, t, j, i)) (ht : x.alphas (b, t, j, i) = 1)
    (hsame : ∀ k ≤ t, y.pidx (b, k, j, i) = x.pidx (b, k, j, i) ∧
      y.alphas (b, k, j, i) = x.alphas (b, k, j, i)) :
    cpuForward acForward y (b, c, j, i) = cpuForward acForward x (b, c, j, i) := by
  rw [alphaComposite_eq_over x hb hc hj hi,
    alphaComposite_eq_over y (by omega) (by omega) (by omega) (by omega)]
  have split : ∀ K, t < K → List.range K
      = List.range t ++ [t] ++ (List.range (K - (t + 1))).map (t + 1 + ·) := by
    intro K hK
    rw [← List.range_succ, ← List.range_add]
    congr 1; omega
  have e : (y.px (b, c, j, i)).layers (List.range t ++ [t])
      = (x.px (b, c, j, i)).layers (List.range t ++ [t]) := by
    have h1 : (y.px (b, c, j, i)).valid (List.range t ++ [t])
        = (x.px (b, c, j, i)).valid (List.range t ++ [t]) := by
      unfold Px.valid
      apply List.filter_congr
      intro k hk
      rw [← List.range_succ, List.mem_range] at hk
      show (!decide (y.pidx (b, k, j, i) < 0)) = (!decide (x.pidx (b, k, j, i) < 0))
      rw [(hsame k (by omega)).1]
    unfold Px.layers
    rw [h1]
    apply List.map_congr_left
    intro k hk
    have hk' := List.mem_of_mem_filter hk
    rw [← List.range_succ, List.mem_range] at hk'
    simp only [In.px, (hsame k (by omega)).1, (hsame k (by omega)).2, hf]
  have tr : transmitted ((x.px (b, c, j, i)).layers (List.range t ++ [t])) = 0 := by
    rw [layers_append, transmitted_append, layers_single_valid]
    · simp [transmitted, In.px, ht]
    · simpa [In.px] using hv
  rw [split _ htx, split _ hty, layers_append, layers_append (x.px _), over_append, over_append, e,
    tr, zero_mul, zero_mul]

section Ordered
variable [LinearOrder R] [IsStrictOrderedRing R]

/-- **C35 (range).** Opacities in [0, 1] give non-negative weights of total at most 1. -/
theorem weights_nonneg (l : List (R × R)) (h : ∀ c ∈ l, 0 ≤ c.1 ∧ c.1 ≤ 1) :
    (∀ w ∈ weights l, 0 ≤ w) ∧ 0 ≤ transmitted l ∧ (weights l).sum ≤ 1 := by
  have ht : 0 ≤ transmitted l := by
    unfold transmitted
    induction l with
    | nil => simp
    | cons c l ih =>
      simp only [List.map_cons, List.prod_cons]
      exact mul_nonneg (by linarith [(h c (by simp)).2]) (ih fun c hc => h c (by simp [hc]))
  refine ⟨?_, ht, by rw [sum_weights]; linarith⟩
  clear ht
  induction l with
  | nil => simp [weights]
  | cons c l ih =>
    obtain ⟨a, f⟩ := c
    have ha := h (a, f) (by simp)
    intro w hw
    simp only [weights, List.mem_cons, List.mem_map] at hw
    rcases hw with rfl | ⟨v, hv, rfl⟩
    · exact ha.1
    · have := ih (fun c hc => h c (by simp [hc])) v hv
      exact mul_nonneg (by linarith [ha.2]) this

/-- **C35 (range).** The output stays between `(1 - T) lo` and `(1 - T) hi` when the colours are in
`[lo, hi]`; `T` is the transmitted fraction. -/
theorem over_bounds (l : List (R × R)) (lo hi : R)
    (h : ∀ c ∈ l, 0 ≤ c.1 ∧ c.1 ≤ 1 ∧ lo ≤ c.2 ∧ c.2 ≤ hi) :
    (1 - transmitted l) * lo ≤ over l ∧ over l ≤ (1 - transmitted l) * hi := by
  induction l with
  | nil => simp [over, transmitted]
  | cons c l ih =>
    obtain ⟨a, f⟩ := c
    have ⟨h1, h2, h3, h4⟩ := h (a, f) (by simp)
    have ⟨i1, i2⟩ := ih (fun c hc => h c (by simp [hc]))
    simp only [over, transmitted, List.map_cons, List.prod_cons] at *
    have e1 := mul_le_mul_of_nonneg_left h3 h1
    have e2 := mul_le_mul_of_nonneg_left h4 h1
    have e3 := mul_le_mul_of_nonneg_left i1 (sub_nonneg.mpr h2)
    have e4 := mul_le_mul_of_nonneg_left i2 (sub_nonneg.mpr h2)
    constructor <;> linarith

end Ordered

/-! ### Backward -/

/-- The inner loop over the nearer points visits the valid slots before `k`. -/
theorem inner_eq (p : Px R) (k : Nat) (v : Nat → R) :
    ((List.range k).filterMap fun t => if p.idx t < 0 then none else some (t, v t))
      = (p.valid (List.range k)).map fun t => (t, v t) := by
  unfold Px.valid
  induction List.range k with
  | nil => rfl
  | cons t ts ih =>
    by_cases h : p.idx t < 0
    · simp [h, ih]
    · simp [h, ih]

theorem scatterAdd_map_valid (ts : List Nat) (hn : ts.Nodup) (v : Nat → R) (t : Nat) :
    scatterAdd (ts.map fun t => (t, v t)) t = if t ∈ ts then v t else 0 := by
  induction ts with
  | nil => simp [scatterAdd]
  | cons a ts ih =>
    rw [List.nodup_cons] at hn
    rw [List.map_cons, scatterAdd_cons, ih hn.2]
    by_cases h : a = t
    · subst h; simp [hn.1]
    · have h' : ¬ t = a := fun e => h e.symm
      simp [h, h']

/-- State of the backward loop after `n` iterations: contributions to one slot. -/
theorem acBack_inv (eps g : R) (p : Px R) (n : Nat) :
    let s := (List.range n).foldl (acBackStep eps g p) ⟨[], [], 1⟩
    s.cum = transmitted (p.layers (List.range n)) ∧
    (∀ t, scatterAdd s.ga t = if t < n ∧ ¬ p.idx t < 0 then
        g * transmitted (p.layers (List.range t)) * (p.f (p.idx t).toNat
          - (1 - p.al t) / (1 - p.al t + eps)
            * over (p.layers ((List.range (n - (t + 1))).map (t + 1 + ·)))) else 0) ∧
    (∀ u : Nat → R, (s.gf.map fun c => c.2 * u c.1).sum
        = g * over ((p.valid (List.range n)).map fun k => (p.al k, u (p.idx k).toNat))) := by
  intro s
  induction n with
  | zero => simp [s, transmitted, Px.layers, Px.valid, scatterAdd, over]
  | succ n ih =>
    obtain ⟨i1, i2, i3⟩ := ih
    have hs : s = acBackStep eps g p ((List.range n).foldl (acBackStep eps g p) ⟨[], [], 1⟩) n := by
      simp only [s, List.range_succ, List.foldl_append, List.foldl_cons, List.foldl_nil]
    revert i1 i2 i3
    rw [hs]
    generalize (List.range n).foldl (acBackStep eps g p) ⟨[], [], 1⟩ = s0
    clear hs s
    intro i1 i2 i3
    have hpost : ∀ t < n, (List.range (n + 1 - (t + 1))).map (t + 1 + ·)
        = (List.range (n - (t + 1))).map (t + 1 + ·) ++ [n] := by
      intro t ht
      rw [show n + 1 - (t + 1) = n - (t + 1) + 1 by omega, List.range_succ, List.map_append,
        List.map_singleton]
      congr 2; omega
    by_cases h : p.idx n < 0
    · rw [acBackStep, if_pos h]
      refine ⟨?_, ?_, ?_⟩
      · rw [i1, List.range_succ, layers_append, layers_single_invalid p n h, List.append_nil]
      · intro t
        rw [i2]
        by_cases ht : t < n
        · rw [hpost t ht, layers_append, layers_single_invalid p n h, List.append_nil]
          have : t < n + 1 := by omega
          simp [ht, this]
        · by_cases htn : t = n
          · subst htn; simp [h]
          · rw [if_neg (by omega), if_neg (by omega)]
      · intro u
        rw [i3, List.range_succ, valid_append]
        simp [Px.valid, h]
    · rw [acBackStep, if_neg h]
      refine ⟨?_, ?_, ?_⟩
      · simp only [i1, List.range_succ, layers_append, layers_single_valid p n h,
          transmitted_append]
        simp [transmitted]
      · intro t
        simp only
        rw [inner_eq p n (fun t => -(g * p.f (p.idx n).toNat * s0.cum * p.al n
            / (1 - p.al t + eps))), scatterAdd_append, scatterAdd_append, i2,
          scatterAdd_map_valid (p.valid (List.range n)) (List.nodup_range.filter _)
            (fun t => -(g * p.f (p.idx n).toNat * s0.cum * p.al n / (1 - p.al t + eps)))]
        have hm : t ∈ p.valid (List.range n) ↔ t < n ∧ ¬ p.idx t < 0 := by
          simp [Px.valid]
        simp only [hm]
        rw [scatterAdd_cons]
        by_cases htn : n = t
        · subst htn
          simp only [lt_irrefl, false_and, if_false, Nat.lt_succ_self, h, not_false_eq_true,
            and_self, if_true, Nat.sub_self, List.range_zero, List.map_nil]
          simp [scatterAdd, Px.layers, Px.valid, over, i1]
          ring
        · rw [if_neg htn]
          by_cases hc : t < n ∧ ¬ p.idx t < 0
          · rw [if_pos hc, if_pos hc, if_pos ⟨by omega, hc.2⟩, hpost t hc.1, layers_append,
              over_append, layers_single_valid p n h, i1]
            have hsp : List.range n
                = List.range t ++ ([t] ++ (List.range (n - (t + 1))).map (t + 1 + ·)) := by
              rw [← List.append_assoc, ← List.range_succ, ← List.range_add]
              congr 1; omega
            rw [hsp, layers_append, layers_append, transmitted_append, transmitted_append,
              layers_single_valid p t hc.2]
            simp [scatterAdd, transmitted, over]
            ring
          · rw [if_neg hc, if_neg hc, if_neg]
            · simp [scatterAdd]
            · rintro ⟨h1, h2⟩; exact hc ⟨by omega, h2⟩
      · intro u
        simp only [List.map_append, List.sum_append, i3, List.range_succ, valid_append,
          over_append, i1]
        have e : transmitted ((p.valid (List.range n)).map fun k => (p.al k, u (p.idx k).toNat))
            = transmitted (p.layers (List.range n)) := by
          simp [transmitted, Px.layers, Function.comp_def]
        rw [e]
        simp [Px.valid, h, over]
        ring

/-- Layers strictly behind slot `t`. -/
def Px.behind (p : Px R) (t : Nat) : List (R × R) :=
  p.layers ((List.range (p.K - (t + 1))).map (t + 1 + ·))

/-- Layers strictly in front of slot `t`. -/
def Px.front (p : Px R) (t : Nat) : List (R × R) := p.layers (List.range t)

theorem layers_split (p : Px R) {t : Nat} (ht : t < p.K) (hv : ¬ p.idx t < 0) :
    p.layers (List.range p.K)
      = p.front t ++ (p.al t, p.f (p.idx t).toNat) :: p.behind t := by
  have hsp : List.range p.K
      = List.range t ++ ([t] ++ (List.range (p.K - (t + 1))).map (t + 1 + ·)) := by
    rw [← List.append_assoc, ← List.range_succ, ← List.range_add]
    congr 1; omega
  rw [hsp, layers_append, layers_append, layers_single_valid p t hv]
  rfl

theorem sum_map_if_mul {α : Type*} (l : List α) (q : α → Prop) [DecidablePred q] (m : R)
    (v : α → R) : (l.map fun a => if q a then m * v a else 0).sum
      = m * (l.map fun a => if q a then v a else 0).sum := by
  rw [← List.sum_map_mul_left]
  congr 1
  apply List.map_congr_left
  intro a _
  split <;> simp

/-- The (pixel, channel) pairs of one image position add up over the channels. -/
theorem sum_pixels_at {B C H W b j i : Nat} (hb : b < B) (hj : j < H) (hi : i < W)
    (v : Ix → R) :
    ((pixels B C H W).map fun p => if p.1 = b ∧ p.2.2.1 = j ∧ p.2.2.2 = i then v p else 0).sum
      = ((List.range C).map fun c => v (b, c, j, i)).sum := by
  have fm : ∀ {α β : Type} (l : List α) (h : α → List β) (f : β → R),
      ((l.flatMap h).map f).sum = (l.map fun a => ((h a).map f).sum).sum := by
    intro α β l h f
    induction l with
    | nil => rfl
    | cons a l ih => simp [List.flatMap_cons, ih]
  have one : ∀ (n k : Nat) (w : Nat → R), k < n →
      ((List.range n).map fun x => if x = k then w x else 0).sum = w k := by
    intro n k w hk
    have := sum_map_ite_eq (List.range n) List.nodup_range k w
    rw [this, if_pos (List.mem_range.mpr hk)]
  have e1 : ∀ b' c j', (((List.range W).map fun i' => (b', c, j', i')).map fun p : Ix =>
      if p.1 = b ∧ p.2.2.1 = j ∧ p.2.2.2 = i then v p else 0).sum
      = if b' = b ∧ j' = j then v (b', c, j', i) else 0 := by
    intro b' c j'
    rw [List.map_map]
    by_cases h : b' = b ∧ j' = j
    · rw [if_pos h, ← one W i (fun i' => v (b', c, j', i')) hi]
      congr 1; apply List.map_congr_left; intro i' _
      simp [Function.comp, h.1, h.2]
    · rw [if_neg h, List.sum_eq_zero]
      intro y hy
      obtain ⟨i', _, rfl⟩ := List.mem_map.mp hy
      simp only [Function.comp]
      rw [if_neg]; rintro ⟨h1, h2, _⟩; exact h ⟨h1, h2⟩
  unfold pixels
  simp only [fm, e1]
  have e2 : ∀ b' c, ((List.range H).map fun j' => if b' = b ∧ j' = j then v (b', c, j', i) else 0).sum
      = if b' = b then v (b', c, j, i) else 0 := by
    intro b' c
    by_cases h : b' = b
    · simp only [h, true_and, if_true]
      exact one H j (fun j' => v (b, c, j', i)) hj
    · simp [h]
  simp only [e2]
  have e3 : ∀ b', ((List.range C).map fun c => if b' = b then v (b', c, j, i) else 0).sum
      = if b' = b then ((List.range C).map fun c => v (b', c, j, i)).sum else 0 := by
    intro b'
    by_cases h : b' = b <;> simp [h]
  simp only [e3]
  exact one B b (fun b' => ((List.range C).map fun c => v (b', c, j, i)).sum) hb

/-- Entries of `grad_alphas`: per-slot contributions, summed over channels. -/
theorem gradAlphas_apply (G : R → Px R → Back R) (x : In R) (gout : Ix → R) {b t j i : Nat}
    (hb : b < x.B) (hj : j < x.H) (hi : i < x.W) :
    (cpuBackward G x gout).2 (b, t, j, i)
      = ((List.range x.C).map fun c =>
          scatterAdd (G (gout (b, c, j, i)) (x.px (b, c, j, i))).ga t).sum := by
  show scatterAdd (gaContribs _ _ _ _) _ = _
  rw [gaContribs, scatterAdd_flatMap,
    ← sum_pixels_at hb hj hi fun p => scatterAdd (G (gout p) (x.px p)).ga t]
  congr 1
  apply List.map_congr_left
  intro p _
  generalize (G (gout p) (x.px p)).ga = l
  obtain ⟨b', c', j', i'⟩ := p
  simp only
  induction l with
  | nil => simp [scatterAdd]
  | cons c l ih =>
    rw [List.map_cons, scatterAdd_cons, ih]
    simp only [Prod.mk.injEq]
    by_cases h : b' = b ∧ j' = j ∧ i' = i
    · obtain ⟨rfl, rfl, rfl⟩ := h
      simp [scatterAdd_cons]
    · simp only [h, if_false, add_zero]
      rw [if_neg]; rintro ⟨h1, _, h2, h3⟩; exact h ⟨h1, h2, h3⟩

/-- **C35 (grad_alphas, as computed).** `grad_alphas[b,t,j,i]` is the sum over channels of
`g * T * (f - r * behind)`: `T` is the fraction of light reaching slot `t`, `f` its colour,
`behind` the composite of the slots behind it, and `r = (1-a)/(1-a+kEps)`; 0 for empty slots. -/
theorem alphaComposite_gradAlphas (eps : R) (x : In R) (gout : Ix → R) {b t j i : Nat}
    (hb : b < x.B) (ht : t < x.K) (hj : j < x.H) (hi : i < x.W) :
    (cpuBackward (acBackward eps) x gout).2 (b, t, j, i)
      = if x.pidx (b, t, j, i) < 0 then 0 else
        ((List.range x.C).map fun c =>
          let p := x.px (b, c, j, i)
          gout (b, c, j, i) * transmitted (p.front t) * (p.f (p.idx t).toNat
            - (1 - p.al t) / (1 - p.al t + eps) * over (p.behind t))).sum := by
  rw [gradAlphas_apply _ _ _ hb hj hi]
  by_cases h : x.pidx (b, t, j, i) < 0
  · rw [if_pos h, List.sum_eq_zero]
    intro y hy
    obtain ⟨c, _, rfl⟩ := List.mem_map.mp hy
    have := (acBack_inv eps (gout (b, c, j, i)) (x.px (b, c, j, i)) x.K).2.1 t
    rw [if_neg] at this
    · exact this
    · simp [In.px, h]
  · rw [if_neg h]
    congr 1
    apply List.map_congr_left
    intro c _
    have := (acBack_inv eps (gout (b, c, j, i)) (x.px (b, c, j, i)) x.K).2.1 t
    rw [if_pos ⟨ht, by simpa [In.px] using h⟩] at this
    exact this

/-- Changing one weight. -/
def In.setAlpha (x : In R) (q : Ix) (a : R) : In R :=
  { x with alphas := Function.update x.alphas q a }

theorem setAlpha_px_other (x : In R) {b t j i : Nat} (a : R) (p : Ix)
    (h : ¬ (p.1 = b ∧ p.2.2.1 = j ∧ p.2.2.2 = i)) :
    (x.setAlpha (b, t, j, i) a).px p = x.px p := by
  simp only [In.px, In.setAlpha, Px.mk.injEq, true_and, and_true]
  funext k
  rw [Function.update_of_ne]
  simp only [ne_eq, Prod.mk.injEq]
  rintro ⟨h1, _, h2, h3⟩; exact h ⟨h1, h2, h3⟩

theorem setAlpha_px_same (x : In R) {b t j i : Nat} (a : R) (c : Nat) :
    (x.setAlpha (b, t, j, i) a).px (b, c, j, i)
      = { x.px (b, c, j, i) with al := Function.update (x.px (b, c, j, i)).al t a } := by
  simp only [In.px, In.setAlpha, Px.mk.injEq, true_and, and_true]
  funext k
  by_cases h : k = t
  · subst h; simp
  · rw [Function.update_of_ne (by simp [h]), Function.update_of_ne h]

theorem layers_update (p : Px R) (t : Nat) (a : R) (ks : List Nat) (h : t ∉ ks) :
    Px.layers { p with al := Function.update p.al t a } ks = p.layers ks := by
  unfold Px.layers
  apply List.map_congr_left
  intro k hk
  have : k ≠ t := fun e => h (e ▸ List.mem_of_mem_filter hk)
  simp [Function.update_of_ne this]

/-- Changing the loss at one image position only. -/
theorem loss_setAlpha (F : Px R → List R) (x : In R) (gout : Ix → R) {b t j i : Nat} (a : R)
    (hb : b < x.B) (hj : j < x.H) (hi : i < x.W) :
    loss F (x.setAlpha (b, t, j, i) a) gout = loss F x gout
      + ((List.range x.C).map fun c => gout (b, c, j, i) *
          ((F ((x.setAlpha (b, t, j, i) a).px (b, c, j, i))).sum
            - (F (x.px (b, c, j, i))).sum)).sum := by
  rw [← sum_pixels_at hb hj hi fun p => gout p *
          ((F ((x.setAlpha (b, t, j, i) a).px p)).sum - (F (x.px p)).sum)]
  unfold loss
  rw [← List.sum_map_add]
  show ((pixels x.B x.C x.H x.W).map _).sum = _
  congr 1
  apply List.map_congr_left
  intro p _
  by_cases h : p.1 = b ∧ p.2.2.1 = j ∧ p.2.2.2 = i
  · rw [if_pos h]; ring
  · rw [if_neg h, setAlpha_px_other x a p h, add_zero]

theorem sum_map_sub {α : Type*} (l : List α) (u v : α → R) :
    (l.map fun a => u a - v a).sum = (l.map u).sum - (l.map v).sum := by
  induction l with
  | nil => simp
  | cons a l ih => simp only [List.map_cons, List.sum_cons, ih]; ring

/-- **C35 (true derivative in a weight).** The loss is affine in every single weight, with slope
the sum over channels of `g * T * (f - behind)`. -/
theorem alphaComposite_affine (x : In R) (gout : Ix → R) {b t j i : Nat} (a : R)
    (hb : b < x.B) (ht : t < x.K) (hj : j < x.H) (hi : i < x.W)
    (hv : 0 ≤ x.pidx (b, t, j, i)) :
    loss acForward (x.setAlpha (b, t, j, i) a) gout = loss acForward x gout
      + (a - x.alphas (b, t, j, i)) * ((List.range x.C).map fun c =>
          let p := x.px (b, c, j, i)
          gout (b, c, j, i) * transmitted (p.front t) *
            (p.f (p.idx t).toNat - over (p.behind t))).sum := by
  rw [loss_setAlpha _ _ _ _ hb hj hi, ← List.sum_map_mul_left]
  congr 2
  apply List.map_congr_left
  intro c _
  rw [acForward_sum, acForward_sum, setAlpha_px_same]
  set p := x.px (b, c, j, i) with hp
  have hv' : ¬ p.idx t < 0 := by simpa [hp, In.px] using hv
  have e1 := layers_split p (t := t) ht hv'
  have e2 := layers_split { p with al := Function.update p.al t a } (t := t) ht hv'
  have f1 : Px.front { p with al := Function.update p.al t a } t = p.front t :=
    layers_update p t a _ (by simp)
  have f2 : Px.behind { p with al := Function.update p.al t a } t = p.behind t :=
    layers_update p t a _ (by simp; intros; omega)
  simp only at e2
  rw [f1, f2, Function.update_self] at e2
  simp only
  rw [e1, e2, over_append, over_append]
  have : p.al t = x.alphas (b, t, j, i) := rfl
  simp only [over, this]
  ring

/-- **C35 (gradient, weights).** Without the guard (`kEps = 0`) and for a weight other than 1, the
hand-written gradient is the exact derivative: moving one weight to any value `a` changes the loss
by exactly `(a - alpha) * grad_alphas`. -/
theorem alphaComposite_gradAlphas_exact (x : In R) (gout : Ix → R) {b t j i : Nat} (a : R)
    (hb : b < x.B) (ht : t < x.K) (hj : j < x.H) (hi : i < x.W)
    (hv : 0 ≤ x.pidx (b, t, j, i)) (h1 : x.alphas (b, t, j, i) ≠ 1) :
    loss acForward (x.setAlpha (b, t, j, i) a) gout = loss acForward x gout
      + (a - x.alphas (b, t, j, i)) *
        (cpuBackward (acBackward 0) x gout).2 (b, t, j, i) := by
  rw [alphaComposite_affine x gout a hb ht hj hi hv,
    alphaComposite_gradAlphas 0 x gout hb ht hj hi, if_neg (by omega)]
  have h2 : 1 - x.alphas (b, t, j, i) ≠ 0 := sub_ne_zero.mpr (Ne.symm h1)
  congr 3
  apply List.map_congr_left
  intro c _
  have : (x.px (b, c, j, i)).al t = x.alphas (b, t, j, i) := rfl
  simp only [this, add_zero, div_self h2, one_mul]

/-- **C35 (gradient, weights).** With the guard, the computed gradient differs from the derivative
by exactly `kEps/(1-a+kEps)` times the contribution of what lies behind; in particular at `a = 1`
(with `kEps ≠ 0`) the contribution of everything behind is lost. -/
theorem alphaComposite_gradAlphas_error (eps : R) (x : In R) (gout : Ix → R) {b t j i : Nat}
    (a : R) (hb : b < x.B) (ht : t < x.K) (hj : j < x.H) (hi : i < x.W)
    (hv : 0 ≤ x.pidx (b, t, j, i)) (h1 : 1 - x.alphas (b, t, j, i) + eps ≠ 0) :
    loss acForward (x.setAlpha (b, t, j, i) a) gout = loss acForward x gout
      + (a - x.alphas (b, t, j, i)) *
        ((cpuBackward (acBackward eps) x gout).2 (b, t, j, i)
          - eps / (1 - x.alphas (b, t, j, i) + eps) * ((List.range x.C).map fun c =>
              let p := x.px (b, c, j, i)
              gout (b, c, j, i) * transmitted (p.front t) * over (p.behind t)).sum) := by
  rw [alphaComposite_affine x gout a hb ht hj hi hv,
    alphaComposite_gradAlphas eps x gout hb ht hj hi, if_neg (by omega), ← List.sum_map_mul_left (List.range x.C)
      _ (eps / _), ← sum_map_sub]
  congr 3
  apply List.map_congr_left
  intro c _
  have : (x.px (b, c, j, i)).al t = x.alphas (b, t, j, i) := rfl
  simp only [this]
  field_simp
  ring

/-- Pairing `grad_features` with a direction. -/
theorem gradFeatures_pairing (G : R → Px R → Back R) (x : In R) (gout : Ix → R) (P : Nat)
    (hP : ∀ p ∈ pixels x.B x.C x.H x.W, ∀ c ∈ (G (gout p) (x.px p)).gf, c.1 < P)
    (u : Nat × Nat → R) :
    ∑ q ∈ Finset.range x.C ×ˢ Finset.range P, (cpuBackward G x gout).1 q * u q
      = ((pixels x.B x.C x.H x.W).map fun p =>
          ((G (gout p) (x.px p)).gf.map fun c => c.2 * u (p.2.1, c.1)).sum).sum := by
  have e := sum_scatterAdd (gfContribs G (pixels x.B x.C x.H x.W) x gout)
    (Finset.range x.C ×ˢ Finset.range P) ?_ u
  · show ∑ q ∈ _, scatterAdd _ q * u q = _
    rw [e, gfContribs]
    induction pixels x.B x.C x.H x.W with
    | nil => rfl
    | cons p ps ih =>
      simp only [List.flatMap_cons, List.map_append, List.sum_append, ih, List.map_cons,
        List.sum_cons, List.map_map]
      rfl
  · intro c hc
    simp only [gfContribs, List.mem_flatMap, List.mem_map] at hc
    obtain ⟨p, hp, c', hc', rfl⟩ := hc
    simp only [Finset.mem_product, Finset.mem_range]
    obtain ⟨b, c, j, i⟩ := p
    exact ⟨(mem_pixels.mp hp).2.1, hP _ hp _ hc'⟩

/-- Replacing the features. -/
def In.withFeatures (x : In R) (f : Nat × Nat → R) : In R := { x with features := f }

theorem over_add (ks : List Nat) (al f u : Nat → R) :
    over (ks.map fun k => (al k, f k + u k))
      = over (ks.map fun k => (al k, f k)) + over (ks.map fun k => (al k, u k)) := by
  induction ks with
  | nil => simp [over]
  | cons k ks ih => simp only [List.map_cons, over, ih]; ring

theorem acBack_gf_mem (eps g : R) (p : Px R) :
    ∀ c ∈ (acBackward eps g p).gf, ∃ k < p.K, ¬ p.idx k < 0 ∧ c.1 = (p.idx k).toNat := by
  have key : ∀ n, ∀ c ∈ ((List.range n).foldl (acBackStep eps g p) ⟨[], [], 1⟩).gf,
      ∃ k < n, ¬ p.idx k < 0 ∧ c.1 = (p.idx k).toNat := by
    intro n
    induction n with
    | zero => simp
    | succ n ih =>
      rw [List.range_succ, List.foldl_append, List.foldl_cons, List.foldl_nil]
      intro c hc
      rw [acBackStep] at hc
      by_cases h : p.idx n < 0
      · rw [if_pos h] at hc
        obtain ⟨k, hk, hk'⟩ := ih c hc
        exact ⟨k, by omega, hk'⟩
      · rw [if_neg h] at hc
        simp only [List.mem_append, List.mem_singleton] at hc
        rcases hc with hc | rfl
        · obtain ⟨k, hk, hk'⟩ := ih c hc
          exact ⟨k, by omega, hk'⟩
        · exact ⟨n, by omega, h, rfl⟩
  exact key p.K

/-- All point indices in the image refer to one of `P` points. -/
def In.InRange (x : In R) (P : Nat) : Prop :=
  ∀ b < x.B, ∀ k < x.K, ∀ j < x.H, ∀ i < x.W, x.pidx (b, k, j, i) < P

/-- **C35 (gradient, features).** The loss is linear in the features with gradient exactly
`grad_features`: `L(f + u) = L(f) + ⟨grad_features, u⟩` for every displacement `u`. -/
theorem alphaComposite_gradFeatures (eps : R) (x : In R) (gout : Ix → R) (P : Nat)
    (hP : x.InRange P) (u : Nat × Nat → R) :
    loss acForward (x.withFeatures fun q => x.features q + u q) gout = loss acForward x gout
      + ∑ q ∈ Finset.range x.C ×ˢ Finset.range P,
          (cpuBackward (acBackward eps) x gout).1 q * u q := by
  rw [gradFeatures_pairing]
  · unfold loss
    rw [← List.sum_map_add]
    show ((pixels x.B x.C x.H x.W).map _).sum = _
    congr 1
    apply List.map_congr_left
    intro p _
    have h3 := (acBack_inv eps (gout p) (x.px p) x.K).2.2 fun n => u (p.2.1, n)
    rw [acForward_sum, acForward_sum]
    have : ((acBackward eps (gout p) (x.px p)).gf.map fun c => c.2 * u (p.2.1, c.1)).sum
      = gout p * over (((x.px p).valid (List.range x.K)).map fun k =>
          ((x.px p).al k, u (p.2.1, ((x.px p).idx k).toNat))) := h3
    rw [this]
    have e := over_add ((x.px p).valid (List.range x.K)) (x.px p).al
      (fun k => x.features (p.2.1, ((x.px p).idx k).toNat))
      (fun k => u (p.2.1, ((x.px p).idx k).toNat))
    unfold Px.layers
    show gout p * over (((x.px p).valid (List.range x.K)).map fun k => ((x.px p).al k,
          x.features (p.2.1, ((x.px p).idx k).toNat) + u (p.2.1, ((x.px p).idx k).toNat))) = _
    rw [e, mul_add]
    rfl
  · intro p hp c hc
    obtain ⟨b, c', j, i⟩ := p
    obtain ⟨h1, h2, h3, h4⟩ := mem_pixels.mp hp
    obtain ⟨k, hk, hv, e⟩ := acBack_gf_mem _ _ _ c hc
    have hk' : k < x.K := hk
    have := hP b h1 k hk' j h3 i h4
    have hv' : ¬ x.pidx (b, k, j, i) < 0 := hv
    rw [e]
    show (x.pidx (b, k, j, i)).toNat < P
    omega

/-! ### CPU and CUDA -/

/-- The CUDA threads visit the same (pixel, channel) pairs as the CPU loops, each once. -/
theorem pixelsCuda_perm {gy bs : Nat} (hg : 0 < gy) (hb : 0 < bs) (B C H W : Nat) :
    (pixelsCuda gy bs B C H W).Perm (pixels B C H W) := by
  have h0 : ∀ batch, ((List.range (C * H * W)).map fun pid =>
        ((batch, pid / (H * W), pid % (H * W) / W, pid % (H * W) % W) : Ix))
      = (List.range C).flatMap fun c =>
        (List.range H).flatMap fun j => (List.range W).map fun i => (batch, c, j, i) := by
    intro batch
    have m : ∀ (l : List Nat) (f : Nat → Ix), l.map f = l.flatMap fun a => [f a] := by
      intro l f; induction l with
      | nil => rfl
      | cons a l ih => simp [ih, List.flatMap_cons]
    rw [m, Nat.mul_assoc, flatMap_range_mul]
    apply flatMap_congr'
    intro c _
    have : (List.range (H * W)).flatMap (fun r =>
        [((batch, (c * (H * W) + r) / (H * W), (c * (H * W) + r) % (H * W) / W,
          (c * (H * W) + r) % (H * W) % W) : Ix)])
        = (List.range (H * W)).flatMap (fun r => [((batch, c, r / W, r % W) : Ix)]) := by
      apply flatMap_congr'
      intro r hr
      rw [div_decode (List.mem_range.mp hr), mod_decode (List.mem_range.mp hr)]
    rw [this, flatMap_range_mul]
    apply flatMap_congr'
    intro j _
    rw [m]
    apply flatMap_congr'
    intro i hi
    rw [div_decode (List.mem_range.mp hi), mod_decode (List.mem_range.mp hi)]
  unfold pixelsCuda pixels
  apply List.Perm.flatMap_left
  intro batch _
  rw [← h0 batch]
  exact (gridStride_perm hg hb _).map _

theorem acForwardCuda_eq (p : Px R) : acForwardCuda p = acForward p := by
  have : acStepCuda p = acStep p := by
    funext s k; unfold acStepCuda acStep
    split
    · rfl
    · rw [mul_comm (p.f _) s.2, mul_assoc, mul_comm (p.f _) (p.al k), ← mul_assoc]
  rw [acForwardCuda, acForward, this]

theorem acBackwardCuda_eq (eps g : R) (p : Px R) :
    acBackwardCuda eps g p = acBackward eps g p := by
  have : acBackStepCuda eps g p = acBackStep eps g p := by
    funext s k; unfold acBackStepCuda acBackStep
    split
    · rfl
    · have e1 : s.cum * p.f (p.idx k).toNat * g = g * p.f (p.idx k).toNat * s.cum := by ring
      have e2 : s.cum * p.al k * g = g * s.cum * p.al k := by ring
      have e3 : ∀ t, -g * p.f (p.idx k).toNat * s.cum * p.al k / (1 - p.al t + eps)
          = -(g * p.f (p.idx k).toNat * s.cum * p.al k / (1 - p.al t + eps)) := by
        intro t; ring
      simp only [e1, e2, e3]
  rw [acBackwardCuda, acBackward, this]

/-- **C35/C36 (CPU = CUDA).** For every launch configuration and every order `cs` in which the
atomic additions take effect, the CUDA forward result is the CPU one. -/
theorem cuda_forward_eq {gy bs : Nat} (hg : 0 < gy) (hb : 0 < bs) (F F' : Px R → List R)
    (hF : ∀ p, F' p = F p) (x : In R) (cs : List (Ix × R))
    (hcs : cs.Perm (fwdContribs F' (pixelsCuda gy bs x.B x.C x.H x.W) x)) :
    scatterAdd cs = cpuForward F x := by
  rw [scatterAdd_perm hcs, cpuForward]
  apply scatterAdd_perm
  unfold fwdContribs
  simp only [hF]
  exact (pixelsCuda_perm hg hb _ _ _ _).flatMap_right _

theorem cuda_backward_eq {gy bs : Nat} (hg : 0 < gy) (hb : 0 < bs) (G G' : R → Px R → Back R)
    (hG : ∀ g p, (G' g p).ga = (G g p).ga ∧ (G' g p).gf = (G g p).gf) (x : In R) (gout : Ix → R)
    (cf : List ((Nat × Nat) × R)) (ca : List (Ix × R))
    (hf : cf.Perm (gfContribs G' (pixelsCuda gy bs x.B x.C x.H x.W) x gout))
    (ha : ca.Perm (gaContribs G' (pixelsCuda gy bs x.B x.C x.H x.W) x gout)) :
    (scatterAdd cf, scatterAdd ca) = cpuBackward G x gout := by
  rw [scatterAdd_perm hf, scatterAdd_perm ha, cpuBackward]
  congr 1
  · apply scatterAdd_perm
    unfold gfContribs
    simp only [(hG _ _).2]
    exact (pixelsCuda_perm hg hb _ _ _ _).flatMap_right _
  · apply scatterAdd_perm
    unfold gaContribs
    simp only [(hG _ _).1]
    exact (pixelsCuda_perm hg hb _ _ _ _).flatMap_right _

/-- **C35 (CPU = CUDA).** -/
theorem alphaComposite_cuda {gy bs : Nat} (hg : 0 < gy) (hb : 0 < bs) (eps : R) (x : In R)
    (gout : Ix → R) (cs ca : List (Ix × R)) (cf : List ((Nat × Nat) × R))
    (hs : cs.Perm (fwdContribs acForwardCuda (pixelsCuda gy bs x.B x.C x.H x.W) x))
    (hf : cf.Perm (gfContribs (acBackwardCuda eps) (pixelsCuda gy bs x.B x.C x.H x.W) x gout))
    (ha : ca.Perm (gaContribs (acBackwardCuda eps) (pixelsCuda gy bs x.B x.C x.H x.W) x gout)) :
    scatterAdd cs = cpuForward acForward x ∧
    (scatterAdd cf, scatterAdd ca) = cpuBackward (acBackward eps) x gout :=
  ⟨cuda_forward_eq hg hb _ _ acForwardCuda_eq x cs hs,
   cuda_backward_eq hg hb _ _ (fun g p => by rw [acBackwardCuda_eq]; exact ⟨rfl, rfl⟩) x gout
     cf ca hf ha⟩

/-! ### Concrete case: a 1×1 image with three slots, the middle one empty -/

def exIn : In ℚ where
  B := 1
  K := 3
  H := 1
  W := 1
  C := 2
  features := fun q => if q = (0, 0) then 4 else if q = (0, 1) then 8 else 1
  alphas := fun q => if q.2.1 = 0 then 1/2 else 1/4
  pidx := fun q => if q.2.1 = 1 then -1 else if q.2.1 = 0 then 1 else 0

example : cpuForward acForward exIn (0, 0, 0, 0) = 9/2 := by decide +kernel
example : over ((exIn.px (0, 0, 0, 0)).layers (List.range 3)) = 9/2 := by decide +kernel
example : (cpuBackward (acBackward 0) exIn fun _ => 1).2 (0, 0, 0, 0) = 7 + 3/4 := by
  decide +kernel
example : weights [((1:ℚ)/2, (0:ℚ)), (1/4, 3)] = [1/2, 1/8] := by decide +kernel
example : (cpuBackward (acBackward (1/10)) exIn fun _ => 1).1 (0, 0) = 1/8 := by decide +kernel
example : over [((1:ℚ)/2, (3:ℚ)), (1, 5), (1/2, 7)] = over [((1:ℚ)/2, (3:ℚ)), (1, 5), (3, 8)] :=
  over_opaque [(1/2, 3)] _ _ 5

end P3D.Compositing
