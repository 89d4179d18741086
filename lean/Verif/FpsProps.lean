/-
C17: farthest point sampling.  All three implementations select the same points: the start, then
repeatedly the first point whose distance to the selected ones is largest.
-/
import Verif.Fps
import Mathlib.Data.Fintype.Card
import Mathlib.Data.Fintype.Pigeonhole
import Mathlib.Tactic.Linarith

set_option linter.unusedSectionVars false

namespace P3D.Fps
open P3D.Chunks

section spec
variable {S : Type*} [LinearOrder S]

/-- Distance of `p` to the selected points, at most `big`. -/
def md (big : S) (d : Nat → Nat → S) (sel : List Nat) (p : Nat) : S :=
  (sel.map (fun q => d q p)).foldr min big

/-- Specification: every point after the first is the first one, among the `len` points, that is
farthest from those selected before it. -/
def IsFps (big : S) (d : Nat → Nat → S) (len : Nat) (sel : List Nat) : Prop :=
  ∀ k s, 0 < k → sel[k]? = some s → s < len ∧
    (∀ p < len, md big d (sel.take k) p ≤ md big d (sel.take k) s) ∧
    (∀ p < s, md big d (sel.take k) p < md big d (sel.take k) s)

theorem md_le_big (big : S) (d : Nat → Nat → S) (sel : List Nat) (p : Nat) :
    md big d sel p ≤ big := by
  induction sel with
  | nil => exact le_refl _
  | cons q sel ih => simp only [md, List.map_cons, List.foldr_cons]; exact le_trans (min_le_right _ _) ih

theorem md_le {big : S} {d : Nat → Nat → S} {sel : List Nat} {q : Nat} (hq : q ∈ sel) (p : Nat) :
    md big d sel p ≤ d q p := by
  induction sel with
  | nil => simp at hq
  | cons a sel ih =>
    simp only [md, List.map_cons, List.foldr_cons]
    rcases List.mem_cons.mp hq with rfl | hq
    · exact min_le_left _ _
    · exact le_trans (min_le_right _ _) (ih hq)

theorem le_md {big : S} {d : Nat → Nat → S} {sel : List Nat} {p : Nat} {x : S} (hb : x ≤ big)
    (h : ∀ q ∈ sel, x ≤ d q p) : x ≤ md big d sel p := by
  induction sel with
  | nil => exact hb
  | cons a sel ih =>
    simp only [md, List.map_cons, List.foldr_cons]
    exact le_min (h a (by simp)) (ih (fun q hq => h q (by simp [hq])))

theorem md_snoc (big : S) (d : Nat → Nat → S) (sel : List Nat) (q p : Nat) :
    md big d (sel ++ [q]) p = min (md big d sel p) (d q p) := by
  induction sel with
  | nil => simp [md, min_comm]
  | cons a sel ih =>
    simp only [md, List.cons_append, List.map_cons, List.foldr_cons] at ih ⊢
    rw [ih, min_assoc]

theorem md_append_le (big : S) (d : Nat → Nat → S) (sel more : List Nat) (p : Nat) :
    md big d (sel ++ more) p ≤ md big d sel p := by
  apply le_md (md_le_big _ _ _ _)
  intro q hq
  exact md_le (List.mem_append_left _ hq) p

/-- The specification determines the selection. -/
theorem IsFps.unique {big : S} {d : Nat → Nat → S} {len : Nat} {a b : List Nat}
    (ha : IsFps big d len a) (hb : IsFps big d len b) (hl : a.length = b.length)
    (h0 : a[0]? = b[0]?) : a = b := by
  have key : ∀ k, a.take k = b.take k := by
    intro k
    induction k with
    | zero => simp
    | succ k ih =>
      rw [List.take_add_one, List.take_add_one, ih]
      congr 2
      by_cases hk : k = 0
      · subst hk; exact h0
      · by_cases hka : k < a.length
        · have h1 : a[k]? = some a[k] := List.getElem?_eq_getElem hka
          have h2 : b[k]? = some b[k] := List.getElem?_eq_getElem (by omega)
          obtain ⟨p1, p2, p3⟩ := ha k _ (by omega) h1
          obtain ⟨q1, q2, q3⟩ := hb k _ (by omega) h2
          rw [ih] at p2 p3
          rw [h1, h2]
          congr 1
          rcases lt_trichotomy a[k] b[k] with h | h | h
          · exact absurd (q3 _ h) (not_lt.mpr (p2 _ q1))
          · exact h
          · exact absurd (p3 _ h) (not_lt.mpr (q2 _ p1))
        · rw [List.getElem?_eq_none (by omega), List.getElem?_eq_none (by omega)]
  have := key a.length
  rwa [List.take_length, hl, List.take_length] at this

/-! ### `max_element` -/

theorem maxElem_spec (l : List S) (hl : l ≠ []) :
    ∃ v, l[maxElem l]? = some v ∧ (∀ (i : Nat) x, l[i]? = some x → x ≤ v) ∧
      (∀ (i : Nat) x, i < maxElem l → l[i]? = some x → x < v) := by
  match l, hl with
  | x :: l, _ =>
    have key : ∀ (r pre : List S) (b : S × Nat),
        (pre ++ r)[b.2]? = some b.1 → b.2 < pre.length →
        (∀ (i : Nat) y, i < pre.length → (pre ++ r)[i]? = some y → y ≤ b.1) →
        (∀ (i : Nat) y, i < b.2 → (pre ++ r)[i]? = some y → y < b.1) →
        let m := (r.zipIdx pre.length).foldl
          (fun (b : S × Nat) y => if b.1 < y.1 then y else b) b
        (pre ++ r)[m.2]? = some m.1 ∧ (∀ (i : Nat) y, (pre ++ r)[i]? = some y → y ≤ m.1) ∧
          (∀ (i : Nat) y, i < m.2 → (pre ++ r)[i]? = some y → y < m.1) := by
      intro r
      induction r with
      | nil =>
        intro pre b h1 h2 h3 h4
        refine ⟨h1, ?_, h4⟩
        intro i y hy
        refine h3 i y ?_ hy
        by_contra hc
        rw [List.getElem?_eq_none (by simp; omega)] at hy
        simp at hy
      | cons y r ih =>
        intro pre b h1 h2 h3 h4
        have e : pre ++ y :: r = (pre ++ [y]) ++ r := by simp
        have hy : (pre ++ y :: r)[pre.length]? = some y := by simp
        rw [List.zipIdx_cons, List.foldl_cons]
        simp only
        have hlen : pre.length + 1 = (pre ++ [y]).length := by simp
        rw [e] at h1 h3 h4 hy ⊢
        rw [hlen]
        by_cases hc : b.1 < y
        · rw [if_pos hc]
          refine ih (pre ++ [y]) (y, pre.length) hy (by simp) ?_ ?_
          · intro i z hi hz
            rcases Nat.lt_or_ge i pre.length with h | h
            · exact le_of_lt (lt_of_le_of_lt (h3 i z h hz) hc)
            · have : i = pre.length := by simp at hi; omega
              subst this
              rw [hy] at hz; cases hz; exact le_refl _
          · intro i z hi hz
            exact lt_of_le_of_lt (h3 i z hi hz) hc
        · rw [if_neg hc]
          refine ih (pre ++ [y]) b h1 (by simp; omega) ?_ h4
          intro i z hi hz
          rcases Nat.lt_or_ge i pre.length with h | h
          · exact h3 i z h hz
          · have : i = pre.length := by simp at hi; omega
            subst this
            rw [hy] at hz; cases hz; exact not_lt.mp hc
    have := key l [x] (x, 0) (by simp) (by simp) (by
      intro i y hi hy
      have : i = 0 := by simpa using hi
      subst this
      simp at hy; exact le_of_eq hy.symm) (by simp)
    simp only [List.singleton_append, List.length_singleton] at this
    exact ⟨_, this.1, this.2.1, this.2.2⟩

/-- Selecting the maximum of the tabulated `md` extends a valid selection. -/
theorem isFps_snoc {big : S} {d : Nat → Nat → S} {len : Nat} {sel : List Nat}
    (h : IsFps big d len sel) {s : Nat} (hlt : s < len)
    (h1 : ∀ p < len, md big d sel p ≤ md big d sel s)
    (h2 : ∀ p < s, md big d sel p < md big d sel s) : IsFps big d len (sel ++ [s]) := by
  intro k t hk ht
  rcases Nat.lt_or_ge k sel.length with hkl | hkl
  · rw [List.getElem?_append_left hkl] at ht
    rw [List.take_append_of_le_length (by omega)]
    exact h k t hk ht
  · rw [List.getElem?_append_right hkl] at ht
    have hk' : k = sel.length := by
      by_contra hc
      rw [List.getElem?_eq_none (by simp; omega)] at ht
      simp at ht
    subst hk'
    simp only [Nat.sub_self, List.getElem?_cons_zero, Option.some.injEq] at ht
    subst ht
    rw [List.take_left']
    · exact ⟨hlt, h1, h2⟩
    · rfl

theorem maxElem_table {len : Nat} (hlen : 0 < len) {f : Nat → S} {l : List S}
    (hl : l = (List.range len).map f) :
    maxElem l < len ∧ (∀ p < len, f p ≤ f (maxElem l)) ∧ ∀ p < maxElem l, f p < f (maxElem l) := by
  have hne : l ≠ [] := by
    intro h
    rw [h] at hl
    have := congrArg List.length hl
    simp at this; omega
  have hget : ∀ (i : Nat), i < len → l[i]? = some (f i) := by
    intro i hi
    rw [hl, List.getElem?_map, List.getElem?_range hi]; rfl
  obtain ⟨v, h1, h2, h3⟩ := maxElem_spec l hne
  have hm : maxElem l < len := by
    by_contra hc
    rw [List.getElem?_eq_none (by
      have : l.length = len := by rw [hl]; simp
      omega)] at h1
    simp at h1
  have hv : f (maxElem l) = v := by
    rw [hget _ hm] at h1; exact Option.some.inj h1
  refine ⟨hm, ?_, ?_⟩
  · intro p hp
    rw [hv]; exact h2 p _ (hget p hp)
  · intro p hp
    rw [hv]; exact h3 p _ hp (hget p (by omega))

theorem zipIdx_map_table {T : Type*} (n : Nat) (f : Nat → S) (g : S × Nat → T) :
    ((List.range n).map f).zipIdx.map g = (List.range n).map (fun i => g (f i, i)) := by
  apply List.ext_getElem
  · simp
  · intro i h1 h2
    simp

/-- Squared distances: zero on the diagonal, non-negative, and the initial value is not negative. -/
structure DistOK [Zero S] (big : S) (d : Nat → Nat → S) : Prop where
  self : ∀ p, d p p = 0
  nonneg : ∀ q p, 0 ≤ d q p
  big : 0 ≤ big

theorem md_eq_zero [Zero S] {big : S} {d : Nat → Nat → S} (h : DistOK big d) {sel : List Nat}
    {p : Nat} (hp : p ∈ sel) : md big d sel p = 0 := by
  apply le_antisymm
  · exact le_trans (md_le hp p) (le_of_eq (h.self p))
  · exact le_md h.big (fun q _ => h.nonneg q p)

theorem cpuLoop_isFps [Zero S] {big : S} {d : Nat → Nat → S} (hd : DistOK big d) {len : Nat}
    (hlen : 0 < len) (n : Nat) (prev : List Nat) (s : Cpu S)
    (hlast : s.last < len)
    (hmask : s.mask = (List.range len).map (fun p => decide (p ∈ prev ++ [s.last])))
    (hdist : s.dists = (List.range len).map (md big d prev))
    (hf : IsFps big d len (prev ++ [s.last])) :
    IsFps big d len (prev ++ [s.last] ++ cpuLoop d n s) ∧
      (cpuLoop d n s).length = n := by
  induction n generalizing prev s with
  | zero => simpa [cpuLoop] using hf
  | succ n ih =>
    have hd' : (cpuStep d s).dists = (List.range len).map (md big d (prev ++ [s.last])) := by
      rw [cpuStep, hdist, zipIdx_map_table]
      apply List.map_congr_left
      intro p hp
      rw [List.mem_range] at hp
      have hm : s.mask.getD p false = decide (p ∈ prev ++ [s.last]) := by
        rw [hmask]; simp [List.getD, hp]
      simp only [cpuDist, hm]
      by_cases hin : p ∈ prev ++ [s.last]
      · simp only [hin, decide_true, if_true]
        rw [md_eq_zero hd hin]
      · simp only [hin, decide_false, Bool.false_eq_true, if_false]
        rw [md_snoc]
        by_cases hc : d s.last p < md big d prev p
        · rw [if_pos hc, min_eq_right (le_of_lt hc)]
        · rw [if_neg hc, min_eq_left (not_lt.mp hc)]
    have hl' : (cpuStep d s).last = maxElem (cpuStep d s).dists := rfl
    obtain ⟨m1, m2, m3⟩ := maxElem_table hlen hd'
    rw [← hl'] at m1 m2 m3
    have hmask' : (cpuStep d s).mask = (List.range len).map
        (fun p => decide (p ∈ (prev ++ [s.last]) ++ [(cpuStep d s).last])) := by
      have : (cpuStep d s).mask = s.mask.set (cpuStep d s).last true := rfl
      rw [this, hmask]
      apply List.ext_getElem
      · simp
      · intro i h1 h2
        rw [List.getElem_set]
        by_cases hi : (cpuStep d s).last = i
        · simp [hi]
        · rw [if_neg hi]
          simp [Ne.symm hi]
    have := ih (prev ++ [s.last]) (cpuStep d s) m1 hmask' hd'
      (isFps_snoc hf m1 m2 m3)
    rw [cpuLoop]
    refine ⟨?_, by simp [this.2]⟩
    have h2 := this.1
    simp only [List.append_assoc, List.singleton_append] at h2 ⊢
    exact h2

theorem isFps_single (big : S) (d : Nat → Nat → S) (len s : Nat) : IsFps big d len [s] := by
  intro k t hk ht
  rw [List.getElem?_eq_none (by simp; omega)] at ht
  simp at ht

/-- **C17 (CPU).** For every cloud of `len` points and valid start, the CPU kernel returns the start
followed by greedily selected farthest points, `max 1 (min len K)` in all, padded with −1. -/
theorem fpsCpu_spec [Zero S] {big : S} {d : Nat → Nat → S} (hd : DistOK big d)
    {len k maxK start : Nat} (hs : start < len) (hm : 0 < maxK) :
    ∃ sel, fpsCpu big d len k maxK start
        = some (sel.map some ++ List.replicate (maxK - sel.length) none) ∧
      sel.length = max 1 (min len k) ∧ sel[0]? = some start ∧ IsFps big d len sel := by
  have := cpuLoop_isFps hd (by omega : 0 < len) (min len k - 1) []
    ⟨(List.replicate len false).set start true, List.replicate len big, start⟩ hs
    (by
      apply List.ext_getElem
      · simp
      · intro i h1 h2
        rw [List.getElem_set]
        by_cases hi : start = i
        · simp [hi]
        · simp [hi, Ne.symm hi])
    (by
      apply List.ext_getElem
      · simp
      · intro i h1 h2
        simp [md])
    (isFps_single _ _ _ _)
  refine ⟨start :: cpuLoop d (min len k - 1)
    ⟨(List.replicate len false).set start true, List.replicate len big, start⟩, ?_, ?_, rfl, this.1⟩
  · rw [fpsCpu, if_neg (by omega), if_neg (by omega)]
  · rw [List.length_cons, this.2]; omega

/-- Undefined exactly for an invalid start index or `max_K = 0`. -/
theorem fpsCpu_undefined [Zero S] (big : S) (d : Nat → Nat → S) (len k maxK start : Nat) :
    fpsCpu big d len k maxK start = none ↔ maxK = 0 ∨ len ≤ start := by
  unfold fpsCpu
  split
  · simp [*]
  · split <;> simp [*]

/-- **C17 (Python reference).** The naive implementation satisfies the same specification. -/
theorem fpsNaive_spec {inf : S} {d : Nat → Nat → S} {len k maxK start : Nat} (hs : start < len)
    (hm : 0 < maxK) :
    ∃ sel, fpsNaive inf d len k maxK start
        = some (sel.map some ++ List.replicate (maxK - sel.length) none) ∧
      sel.length = max 1 (min len k) ∧ sel[0]? = some start ∧ IsFps inf d len sel := by
  have key : ∀ n prev last, IsFps inf d len (prev ++ [last]) →
      IsFps inf d len (prev ++ [last] ++
        naiveLoop d n ((List.range len).map (md inf d prev)) last) ∧
      (naiveLoop d n ((List.range len).map (md inf d prev)) last).length = n := by
    intro n
    induction n with
    | zero => intro prev last h; simpa [naiveLoop] using h
    | succ n ih =>
      intro prev last h
      have e : ((List.range len).map (md inf d prev)).zipIdx.map
          (fun e => min (d last e.2) e.1) = (List.range len).map (md inf d (prev ++ [last])) := by
        rw [zipIdx_map_table]
        apply List.map_congr_left
        intro p _
        rw [md_snoc, min_comm]
      rw [naiveLoop, e]
      obtain ⟨m1, m2, m3⟩ := maxElem_table (by omega : 0 < len)
        (rfl : (List.range len).map (md inf d (prev ++ [last])) = _)
      have := ih (prev ++ [last]) _ (isFps_snoc h m1 m2 m3)
      refine ⟨?_, by simp [this.2]⟩
      have h2 := this.1
      simp only [List.append_assoc, List.singleton_append] at h2 ⊢
      exact h2
  have := key (min len k - 1) [] start (isFps_single _ _ _ _)
  have e : (List.range len).map (md inf d []) = List.replicate len inf := by
    apply List.ext_getElem
    · simp
    · intro i h1 h2; simp [md]
  rw [e] at this
  refine ⟨start :: naiveLoop d (min len k - 1) (List.replicate len inf) start, ?_, ?_, rfl, this.1⟩
  · rw [fpsNaive, if_neg (by omega)]
  · rw [List.length_cons, this.2]; omega

/-! ### CUDA block reduction -/

/-- `a` wins against `b` under `cub::ArgMax`. -/
def Wins (a b : Nat × S) : Prop := b.2 < a.2 ∨ (a.2 = b.2 ∧ a.1 ≤ b.1)

theorem Wins.trans {a b c : Nat × S} (h1 : Wins a b) (h2 : Wins b c) : Wins a c := by
  unfold Wins at *
  rcases h1 with h1 | ⟨h1, h1'⟩ <;> rcases h2 with h2 | ⟨h2, h2'⟩
  · exact Or.inl (lt_trans h2 h1)
  · exact Or.inl (h2 ▸ h1)
  · exact Or.inl (h1 ▸ h2)
  · exact Or.inr ⟨h1.trans h2, le_trans h1' h2'⟩

theorem argMaxOp_wins (a b : Nat × S) : Wins (argMaxOp a b) a ∧ Wins (argMaxOp a b) b ∧
    (argMaxOp a b = a ∨ argMaxOp a b = b) := by
  unfold argMaxOp Wins
  split
  · rename_i h
    refine ⟨?_, Or.inr ⟨rfl, le_refl _⟩, Or.inr rfl⟩
    rcases h with h | h
    · exact Or.inl h
    · exact Or.inr ⟨h.1.symm, le_of_lt h.2⟩
  · rename_i h
    push Not at h
    refine ⟨Or.inr ⟨rfl, le_refl _⟩, ?_, Or.inl rfl⟩
    rcases lt_or_eq_of_le h.1 with h1 | h1
    · exact Or.inl h1
    · exact Or.inr ⟨h1.symm, h.2 h1.symm⟩

/-- A reduction in any order returns one of the values, which wins against all. -/
theorem reduce_wins (t : Tree (Nat × S)) :
    t.eval argMaxOp ∈ t.leaves ∧ ∀ x ∈ t.leaves, Wins (t.eval argMaxOp) x := by
  induction t with
  | leaf a => exact ⟨by simp [Tree.leaves, Tree.eval], by simp [Tree.leaves, Tree.eval, Wins]⟩
  | node l r hl hr =>
    obtain ⟨h1, h2, h3⟩ := argMaxOp_wins (l.eval argMaxOp) (r.eval argMaxOp)
    simp only [Tree.leaves, Tree.eval, List.mem_append]
    refine ⟨?_, ?_⟩
    · rcases h3 with h3 | h3
      · rw [h3]; exact Or.inl hl.1
      · rw [h3]; exact Or.inr hr.1
    · rintro x (hx | hx)
      · exact h1.trans (hl.2 x hx)
      · exact h2.trans (hr.2 x hx)

theorem threadFold_spec {neg1 : S} {f : Nat → S} (hf : ∀ p, neg1 < f p) (l : List Nat)
    (hl : l.Pairwise (· < ·)) :
    let r := l.foldl
      (fun b p => (if f p > b.2 then p else b.1, if f p > b.2 then f p else b.2)) (0, neg1)
    (l = [] ∧ r = (0, neg1)) ∨ (r.1 ∈ l ∧ r.2 = f r.1 ∧ ∀ p ∈ l, Wins r (p, f p)) := by
  induction l using List.reverseRecOn with
  | nil => exact Or.inl ⟨rfl, rfl⟩
  | append_singleton l q ih =>
    rw [List.pairwise_append] at hl
    have ih := ih hl.1
    simp only [List.foldl_append, List.foldl_cons, List.foldl_nil] at ih ⊢
    right
    rcases ih with ⟨h1, h2⟩ | ⟨h1, h2, h3⟩
    · rw [h2, h1]
      simp only [hf q, if_true]
      simp [Wins]
    · generalize hr : l.foldl
        (fun b p => (if f p > b.2 then p else b.1, if f p > b.2 then f p else b.2)) (0, neg1) = r
        at h1 h2 h3
      by_cases hc : f q > r.2
      · simp only [if_pos hc]
        refine ⟨by simp, trivial, ?_⟩
        intro p hp
        rcases List.mem_append.mp hp with hp | hp
        · refine Wins.trans (Or.inl hc) (h3 p hp)
        · simp only [List.mem_singleton] at hp; subst hp; exact Or.inr ⟨rfl, le_refl _⟩
      · simp only [if_neg hc]
        refine ⟨by simp [h1], h2, ?_⟩
        intro p hp
        rcases List.mem_append.mp hp with hp | hp
        · exact h3 p hp
        · simp only [List.mem_singleton] at hp; subst hp
          rcases lt_or_eq_of_le (not_lt.mp hc) with h | h
          · exact Or.inl h
          · exact Or.inr ⟨h.symm, le_of_lt (hl.2.2 _ h1 _ (by simp))⟩

/-- The index found by the block: the first largest. -/
theorem gpuNext_spec {neg1 : S} {B len : Nat} (hB : 0 < B) (hlen : 0 < len) {f : Nat → S}
    (hf : ∀ p, neg1 < f p) (t : Tree (Nat × S))
    (ht : t.leaves.Perm ((List.range B).map (threadMax neg1 B len f))) :
    (t.eval argMaxOp).1 < len ∧ (∀ p < len, f p ≤ f (t.eval argMaxOp).1) ∧
      ∀ p < (t.eval argMaxOp).1, f p < f (t.eval argMaxOp).1 := by
  obtain ⟨h1, h2⟩ := reduce_wins t
  generalize hr : t.eval argMaxOp = r at h1 h2
  -- every point is beaten by the result
  have hall : ∀ p < len, Wins r (p, f p) := by
    intro p hp
    have hlt : p % B < B := Nat.mod_lt _ hB
    have hin : threadMax neg1 B len f (p % B) ∈ t.leaves :=
      ht.mem_iff.mpr (List.mem_map.mpr ⟨_, List.mem_range.mpr hlt, rfl⟩)
    have hmem : p ∈ strideLoop (p % B) B len := (mem_strideLoop_lt hlt).mpr ⟨hp, rfl⟩
    rcases threadFold_spec hf (strideLoop (p % B) B len) (pairwise_strideLoop _ _ _ hB) with h | h
    · rw [h.1] at hmem; simp at hmem
    · exact (h2 _ hin).trans (h.2.2 p hmem)
  -- the result is one of the points
  have hres : r.1 < len ∧ r.2 = f r.1 := by
    obtain ⟨tid, htid, hrt⟩ := List.mem_map.mp (ht.mem_iff.mp h1)
    rw [List.mem_range] at htid
    rcases threadFold_spec hf (strideLoop tid B len) (pairwise_strideLoop _ _ _ hB) with h | h
    · have hr0 : r = (0, neg1) := by rw [← hrt]; exact h.2
      have := hall 0 hlen
      rw [hr0] at this
      rcases this with h | h
      · exact absurd h (not_lt.mpr (le_of_lt (hf 0)))
      · have h' : neg1 = f 0 := h.1
        exact absurd (hf 0) (by rw [← h']; exact lt_irrefl _)
    · have e : r = (strideLoop tid B len).foldl
        (fun b p => (if f p > b.2 then p else b.1, if f p > b.2 then f p else b.2)) (0, neg1) :=
        hrt.symm
      rw [← e] at h
      exact ⟨((mem_strideLoop_lt htid).mp h.1).1, h.2.1⟩
  refine ⟨hres.1, ?_, ?_⟩
  · intro p hp
    rcases hall p hp with h | h
    · rw [← hres.2]; exact le_of_lt h
    · rw [← hres.2]; exact le_of_eq h.1.symm
  · intro p hp
    rcases hall p (by omega) with h | h
    · rw [← hres.2]; exact h
    · have h' : r.1 ≤ p := h.2
      omega

theorem gpuMinDist_eq (big : S) (d : Nat → Nat → S) (sel : List Nat) (p : Nat) :
    gpuMinDist big d sel p = md big d sel p := by
  unfold gpuMinDist
  induction sel using List.reverseRecOn with
  | nil => rfl
  | append_singleton l q ih => rw [List.foldl_append, md_snoc, ← ih, min_comm]; rfl

/-- **C17 (CUDA).** Whatever the number of threads and the order of the reductions, a block selects
the points of the specification (`neg1` is the initial maximum −1). -/
theorem gpuRun_spec [Zero S] {neg1 big : S} {d : Nat → Nat → S} (hd : DistOK big d)
    (hneg : neg1 < 0) {B len start : Nat} (hB : 0 < B) (hlen : 0 < len) {sel : List Nat}
    (h : GpuRun neg1 big d B len start sel) : sel[0]? = some start ∧ IsFps big d len sel := by
  induction h with
  | init => exact ⟨rfl, isFps_single _ _ _ _⟩
  | @step sel t _ ht ih =>
    have hlt : ∀ p, neg1 < gpuMinDist big d sel p := by
      intro p
      rw [gpuMinDist_eq]
      exact lt_of_lt_of_le hneg (le_md hd.big (fun q _ => hd.nonneg q p))
    obtain ⟨h1, h2, h3⟩ := gpuNext_spec hB hlen hlt t ht
    simp only [gpuMinDist_eq] at h2 h3
    have hne : 0 < sel.length := by
      by_contra hc
      rw [List.getElem?_eq_none (by omega)] at ih
      simp at ih
    refine ⟨by rw [List.getElem?_append_left hne]; exact ih.1, isFps_snoc ih.2 h1 h2 h3⟩

/-- Distances that never exceed the initial value: it plays no role. -/
theorem md_eq_of_le {T : Type*} [LinearOrder T] {big : S} {inf : T} {d : Nat → Nat → S}
    {f : S → T} (hmono : Monotone f) (hinf : ∀ x, f x ≤ inf) {sel : List Nat} (hs : sel ≠ [])
    {p : Nat} (hle : ∀ q ∈ sel, d q p ≤ big) :
    md inf (fun q p => f (d q p)) sel p = f (md big d sel p) := by
  match sel, hs with
  | a :: sel, _ =>
    clear hs
    induction sel generalizing a with
    | nil => simp [md, min_eq_left (hinf _), min_eq_left (hle a (by simp))]
    | cons b sel ih =>
      have := ih b (by simp) (fun q hq => hle q (by
        rcases List.mem_cons.mp hq with h | h <;> simp [h]))
      simp only [md, List.map_cons, List.foldr_cons] at this ⊢
      rw [this]
      exact (hmono.map_min).symm

/-- With all distances at most `big`, the specification with `big` and the one with infinity agree. -/
theorem isFps_top_iff {big : S} {d : Nat → Nat → S} {len : Nat} {sel : List Nat}
    (hin : ∀ q ∈ sel, q < len) (hle : ∀ q < len, ∀ p < len, d q p ≤ big) :
    IsFps big d len sel ↔ IsFps (⊤ : WithTop S) (fun q p => ((d q p : S) : WithTop S)) len sel := by
  have e : ∀ k, 0 < k → k < sel.length → ∀ p < len,
      md (⊤ : WithTop S) (fun q p => ((d q p : S) : WithTop S)) (sel.take k) p
        = ((md big d (sel.take k) p : S) : WithTop S) := by
    intro k h1 h2 p hp
    apply md_eq_of_le (f := fun x : S => (x : WithTop S)) (fun a b h => WithTop.coe_le_coe.mpr h)
      (fun x => le_top)
    · intro h
      have := congrArg List.length h
      rw [List.length_take, List.length_nil] at this; omega
    · intro q hq
      exact hle q (hin q (List.mem_of_mem_take hq)) p hp
  constructor <;> intro h k s hk hs
  · have hkl : k < sel.length := by
      by_contra hc
      rw [List.getElem?_eq_none (by omega)] at hs; simp at hs
    obtain ⟨h1, h2, h3⟩ := h k s hk hs
    refine ⟨h1, ?_, ?_⟩
    · intro p hp
      rw [e k hk hkl p hp, e k hk hkl s h1]; exact WithTop.coe_le_coe.mpr (h2 p hp)
    · intro p hp
      rw [e k hk hkl p (by omega), e k hk hkl s h1]; exact WithTop.coe_lt_coe.mpr (h3 p hp)
  · have hkl : k < sel.length := by
      by_contra hc
      rw [List.getElem?_eq_none (by omega)] at hs; simp at hs
    obtain ⟨h1, h2, h3⟩ := h k s hk hs
    refine ⟨h1, ?_, ?_⟩
    · intro p hp
      have := h2 p hp
      rw [e k hk hkl p hp, e k hk hkl s h1] at this; exact WithTop.coe_le_coe.mp this
    · intro p hp
      have := h3 p hp
      rw [e k hk hkl p (by omega), e k hk hkl s h1] at this; exact WithTop.coe_lt_coe.mp this

theorem IsFps.lt {big : S} {d : Nat → Nat → S} {len : Nat} {sel : List Nat} {start : Nat}
    (h : IsFps big d len sel) (h0 : sel[0]? = some start) (hs : start < len) :
    ∀ q ∈ sel, q < len := by
  intro q hq
  obtain ⟨i, hi, rfl⟩ := List.getElem_of_mem hq
  by_cases h00 : i = 0
  · subst h00
    rw [List.getElem?_eq_getElem hi] at h0
    rw [Option.some.inj h0]; exact hs
  · exact (h i _ (by omega) (List.getElem?_eq_getElem hi)).1

/-- **C17 (agreement).** CPU kernel, CUDA block and Python reference select the same points when no
squared distance exceeds the initial values (`FLT_MAX`, `1e10`, infinity). -/
theorem fps_agree [Zero S] {bigC bigG neg1 : S} {d : Nat → Nat → S} (hC : DistOK bigC d)
    (hG : DistOK bigG d) (hneg : neg1 < 0) {B len k maxK start : Nat} (hB : 0 < B)
    (hs : start < len) (hm : 0 < maxK)
    (hleC : ∀ q < len, ∀ p < len, d q p ≤ bigC) (hleG : ∀ q < len, ∀ p < len, d q p ≤ bigG)
    {selG : List Nat} (hrun : GpuRun neg1 bigG d B len start selG)
    (hlenG : selG.length = max 1 (min len k)) :
    ∃ sel, fpsCpu bigC d len k maxK start
        = some (sel.map some ++ List.replicate (maxK - sel.length) none) ∧
      fpsNaive (⊤ : WithTop S) (fun q p => ((d q p : S) : WithTop S)) len k maxK start
        = some (sel.map some ++ List.replicate (maxK - sel.length) none) ∧
      selG = sel := by
  obtain ⟨sel, h1, h2, h3, h4⟩ := fpsCpu_spec hC (k := k) hs hm
  obtain ⟨selN, n1, n2, n3, n4⟩ := fpsNaive_spec (inf := (⊤ : WithTop S))
    (d := fun q p => ((d q p : S) : WithTop S)) (k := k) hs hm
  obtain ⟨g3, g4⟩ := gpuRun_spec hG hneg hB (by omega) hrun
  have t1 := (isFps_top_iff (h4.lt h3 hs) hleC).mp h4
  have t2 := (isFps_top_iff (g4.lt g3 hs) hleG).mp g4
  have e1 : selN = sel := n4.unique t1 (by rw [n2, h2]) (by rw [n3, h3])
  have e2 : selG = sel := t2.unique t1 (by rw [hlenG, h2]) (by rw [g3, h3])
  exact ⟨sel, h1, by rw [n1, e1], e2⟩

/-! ### Consequences -/

/-- Selection distances do not increase. -/
theorem IsFps.radius_antitone {big : S} {d : Nat → Nat → S} {len : Nat} {sel : List Nat}
    (h : IsFps big d len sel) {i j s t : Nat} (hi : 0 < i) (hij : i ≤ j)
    (hs : sel[i]? = some s) (ht : sel[j]? = some t) :
    md big d (sel.take j) t ≤ md big d (sel.take i) s := by
  obtain ⟨h1, -, -⟩ := h j t (by omega) ht
  obtain ⟨-, h2, -⟩ := h i s hi hs
  refine le_trans ?_ (h2 t h1)
  have : sel.take j = sel.take i ++ (sel.drop i).take (j - i) := by
    rw [← List.take_add]; congr 1; omega
  rw [this]
  exact md_append_le _ _ _ _ _

/-- Any two selected points are at least as far apart as any remaining point is from the selection. -/
theorem IsFps.separated {big : S} {d : Nat → Nat → S} {len : Nat} {sel : List Nat}
    (h : IsFps big d len sel) {p : Nat} (hp : p < len) {i j s t : Nat} (hij : i < j)
    (hs : sel[i]? = some s) (ht : sel[j]? = some t) : md big d sel p ≤ d s t := by
  obtain ⟨-, h2, -⟩ := h j t (by omega) ht
  have h3 : md big d sel p ≤ md big d (sel.take j) p := by
    have : sel = sel.take j ++ sel.drop j := (List.take_append_drop _ _).symm
    conv_lhs => rw [this]
    exact md_append_le _ _ _ _ _
  refine le_trans h3 (le_trans (h2 p hp) ?_)
  apply md_le
  rw [List.mem_iff_getElem?]
  exact ⟨i, by rw [List.getElem?_take_of_lt hij]; exact hs⟩

/-- **C17 (distinct).** If different points have positive distance, the selected indices are distinct
(as long as no more than `len` are selected). -/
theorem IsFps.nodup [Zero S] {big : S} {d : Nat → Nat → S} (hd : DistOK big d) (hbig : 0 < big)
    {len start : Nat} (hpos : ∀ q < len, ∀ p < len, q ≠ p → 0 < d q p) {sel : List Nat}
    (h : IsFps big d len sel) (h0 : sel[0]? = some start) (hs : start < len)
    (hl : sel.length ≤ len) : sel.Nodup := by
  have hlt := h.lt h0 hs
  rw [List.nodup_iff_injective_getElem]
  have key : ∀ i j : Nat, i < j → ∀ s t, sel[i]? = some s → sel[j]? = some t → s ≠ t := by
    intro i j hij s t hsi htj hst
    subst hst
    have hjl : j < sel.length := by
      by_contra hc
      rw [List.getElem?_eq_none (by omega)] at htj; simp at htj
    obtain ⟨h1, h2, -⟩ := h j s (by omega) htj
    have hz : md big d (sel.take j) s = 0 := by
      apply md_eq_zero hd
      rw [List.mem_iff_getElem?]
      exact ⟨i, by rw [List.getElem?_take_of_lt hij]; exact hsi⟩
    -- some point is not among the first j
    have : ∃ p < len, p ∉ sel.take j := by
      by_contra hc
      push Not at hc
      have hsub : (List.range len).Subperm (sel.take j) :=
        List.subperm_of_subset List.nodup_range (fun p hp => hc p (List.mem_range.mp hp))
      have := hsub.length_le
      simp at this
      omega
    obtain ⟨p, hp, hpn⟩ := this
    have hgt : 0 < md big d (sel.take j) p := by
      clear h2 hz
      have hmem : ∀ q ∈ sel.take j, q < len ∧ q ≠ p := by
        intro q hq
        exact ⟨hlt q (List.mem_of_mem_take hq), fun e => hpn (e ▸ hq)⟩
      generalize sel.take j = l at hmem
      clear hpn
      induction l with
      | nil => exact hbig
      | cons a l ih =>
        simp only [md, List.map_cons, List.foldr_cons] at ih ⊢
        refine lt_min (hpos a (hmem a (by simp)).1 p hp (hmem a (by simp)).2)
          (ih (fun q hq => hmem q (by simp [hq])))
    have := h2 p hp
    rw [hz] at this
    exact absurd hgt (not_lt.mpr this)
  intro i j hij
  by_contra hne
  have hne' : i.1 ≠ j.1 := fun e => hne (Fin.ext e)
  rcases Nat.lt_or_gt_of_ne hne' with hlt' | hlt'
  · exact key i j hlt' _ _ (List.getElem?_eq_getElem i.2) (List.getElem?_eq_getElem j.2) hij
  · exact key j i hlt' _ _ (List.getElem?_eq_getElem j.2) (List.getElem?_eq_getElem i.2) hij.symm

/-- **C17 (coverage).** The selection covers the cloud as well as any partition: if the points are
divided into as many groups as points were selected, and points of one group have (squared) distance
at most `δ`, then every point has (squared) distance at most `δ` to a selected one. -/
theorem IsFps.covers {big : S} {d : Nat → Nat → S} {len start : Nat} {sel : List Nat}
    (h : IsFps big d len sel) (h0 : sel[0]? = some start) (hs : start < len)
    (hle : ∀ q < len, ∀ p < len, d q p ≤ big) (c : Nat → Nat) (δ : S)
    (hc : ∀ p < len, c p < sel.length)
    (hδ : ∀ p < len, ∀ q < len, c p = c q → d p q ≤ δ) {p : Nat} (hp : p < len) :
    ∃ q ∈ sel, d q p ≤ δ := by
  by_contra hcon
  push Not at hcon
  have hlt := h.lt h0 hs
  have hn : 0 < sel.length := by
    by_contra hcc
    rw [List.getElem?_eq_none (by omega)] at h0; simp at h0
  -- more than δ away from the selection
  have hmd : δ < md big d sel p := by
    have : ∀ l : List Nat, l ≠ [] → (∀ q ∈ l, q < len ∧ δ < d q p) → δ < md big d l p := by
      intro l hl hq
      induction l with
      | nil => exact absurd rfl hl
      | cons a l ih =>
        simp only [md, List.map_cons, List.foldr_cons]
        refine lt_min (hq a (by simp)).2 ?_
        by_cases hln : l = []
        · subst hln
          exact lt_of_lt_of_le (hq a (by simp)).2 (hle a (hq a (by simp)).1 p hp)
        · exact ih hln (fun q hq' => hq q (by simp [hq']))
    exact this sel (by intro e; rw [e] at hn; simp at hn) (fun q hq => ⟨hlt q hq, hcon q hq⟩)
  -- pigeonhole on the selection and p
  let f : Fin (sel.length + 1) → Fin sel.length := fun i =>
    if hi : i.1 < sel.length then ⟨c sel[i.1], hc _ (hlt _ (List.getElem_mem hi))⟩
    else ⟨c p, hc p hp⟩
  obtain ⟨i, j, hne, hij⟩ := Fintype.exists_ne_map_eq_of_card_lt f (by simp)
  have main : ∀ i j : Fin (sel.length + 1), i.1 < j.1 → f i = f j → False := by
    intro i j hlt' heq
    have hi : i.1 < sel.length := by have := j.2; omega
    simp only [f, dif_pos hi] at heq
    by_cases hj : j.1 < sel.length
    · rw [dif_pos hj, Fin.mk.injEq] at heq
      have h1 := hδ _ (hlt _ (List.getElem_mem hi)) _ (hlt _ (List.getElem_mem hj)) heq
      have h2 := h.separated hp hlt' (List.getElem?_eq_getElem hi) (List.getElem?_eq_getElem hj)
      exact absurd (lt_of_lt_of_le hmd h2) (not_lt.mpr h1)
    · rw [dif_neg hj, Fin.mk.injEq] at heq
      exact absurd (hδ _ (hlt _ (List.getElem_mem hi)) p hp heq)
        (not_le.mpr (hcon _ (List.getElem_mem hi)))
  rcases Nat.lt_or_gt_of_ne (fun e => hne (Fin.ext e)) with hl | hl
  · exact main i j hl hij
  · exact main j i hl hij.symm

end spec

/-! ### Findings -/

/-- Coincident points: an index is selected twice. -/
theorem fps_duplicates : fpsCpu (100 : ℤ) (fun _ _ => 0) 3 3 3 1 = some [some 1, some 0, some 0] := by
  decide

/-- The CUDA initial value `1e10` changes the selection when squared distances exceed it. -/
theorem fps_clamp : ∃ d : Nat → Nat → ℤ, DistOK (10 ^ 10) d ∧
    fpsCpu (10 ^ 38) d 3 2 2 0 = some [some 0, some 2] ∧
    ∀ sel, IsFps (10 ^ 10) d 3 sel → sel.length = 2 → sel[0]? = some 0 → sel = [0, 1] := by
  refine ⟨fun q p => ((if p = 0 then 0 else if p = 1 then 200000 else 300000)
    - (if q = 0 then 0 else if q = 1 then 200000 else 300000)) ^ 2, ⟨?_, ?_, by norm_num⟩, ?_, ?_⟩
  · intro p; simp
  · intro q p; positivity
  · decide +kernel
  · intro sel h hl h0
    refine h.unique (b := [0, 1]) ?_ (by simp [hl]) (by simp [h0])
    intro k s hk hs
    have hk1 : k = 1 := by
      by_contra hc
      rw [List.getElem?_eq_none (by simp; omega)] at hs; simp at hs
    subst hk1
    simp only [List.getElem?_cons_succ, List.getElem?_cons_zero, Option.some.injEq] at hs
    subst hs
    decide +kernel

/-- **C17 (CUDA launch).** From 8 points per cloud on, there is one block per cloud. -/
theorem fpsGrid_large {N P : Nat} (hP : 8 ≤ P) : fpsGrid N P = N := by
  have h : 3 ≤ Nat.log2 P := (Nat.le_log2 (by omega)).mpr hP
  have h2 : 2 ^ 3 ≤ 2 ^ Nat.log2 P := Nat.pow_le_pow_right (by omega) h
  rw [fpsGrid, if_neg]
  unfold fpsThreads
  omega

/-- With at least 8 points per cloud every cloud gets the result of its block. -/
theorem fpsCuda_large {N P maxK : Nat} (hP : 8 ≤ P) (run : Nat → List Nat) :
    fpsCuda N P maxK run = some ((List.range N).map (fun n =>
      (run n).map some ++ List.replicate (maxK - (run n).length) none)) := by
  unfold fpsCuda
  rw [fpsGrid_large hP]
  by_cases hN : N = 0
  · subst hN; simp
  · rw [if_neg (by omega), if_neg (by omega)]
    congr 1
    apply List.map_congr_left
    intro n hn
    rw [if_pos (List.mem_range.mp hn)]

/-- Finding: with fewer than 8 points the kernel is launched with `threads` (4 or 2) blocks.  With
more clouds than that, the remaining clouds are not sampled at all. -/
theorem fpsCuda_small_missing {N P maxK : Nat} (hP0 : 0 < P) (hP : P < 8) (hN : 4 < N)
    (run : Nat → List Nat) :
    ∃ rows, fpsCuda N P maxK run = some rows ∧
      ∀ n, 4 ≤ n → n < N → rows[n]? = some (List.replicate maxK none) := by
  have hg : fpsGrid N P ≤ 4 := by
    have h2 : 2 ^ Nat.log2 P ≤ P := Nat.log2_self_le (by omega)
    have : fpsThreads P = 4 ∨ fpsThreads P = 2 := by
      have : P = 1 ∨ P = 2 ∨ P = 3 ∨ P = 4 ∨ P = 5 ∨ P = 6 ∨ P = 7 := by omega
      rcases this with rfl | rfl | rfl | rfl | rfl | rfl | rfl <;> decide +kernel
    rw [fpsGrid, if_pos this]; omega
  refine ⟨_, by rw [fpsCuda, if_neg (by omega), if_neg (by omega)], ?_⟩
  intro n h1 h2
  rw [List.getElem?_map, List.getElem?_range h2]
  simp only [Option.map_some]
  rw [if_neg (by omega)]

/-- … and with fewer clouds the extra blocks access the tensors out of bounds. -/
theorem fpsCuda_small_oob {P maxK : Nat} (hP0 : 0 < P) (hP : P < 8) (run : Nat → List Nat) :
    fpsCuda 1 P maxK run = none := by
  have : P = 1 ∨ P = 2 ∨ P = 3 ∨ P = 4 ∨ P = 5 ∨ P = 6 ∨ P = 7 := by omega
  rw [fpsCuda, if_neg (by omega), if_pos]
  rcases this with rfl | rfl | rfl | rfl | rfl | rfl | rfl <;> decide +kernel

example : fpsCpu (1000 : ℤ) (fun q p => ((p : ℤ) ^ 2 - (q : ℤ) ^ 2) ^ 2) 5 4 5 1
    = some [some 1, some 4, some 3, some 2, none] := by decide +kernel

end P3D.Fps
