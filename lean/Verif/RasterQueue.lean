/-
The per-pixel queues of the rasterizers: the CPU priority queue and sorted deque, the GPU array with a tracked
maximum, and the GPU bubble sort.
-/
import Verif.TopK
import Mathlib.Algebra.Order.Field.Basic
import Mathlib.Data.Prod.Lex
import Mathlib.Tactic.Ring
import Mathlib.Tactic.Linarith

set_option linter.unusedSectionVars false

namespace P3D.Raster

variable {τ : Type}

/-! ## CPU -/

section cpu
variable [LinearOrder τ]

/-- `rasterize_points_cpu.cpp:75-79`: `q.emplace(..); if (q.size() > K) q.pop();`.  The
`std::priority_queue` is a list in ascending order; `pop` removes the largest item. -/
def pqPush (K : Nat) (q : List τ) (x : τ) : List τ :=
  let q' := q.orderedInsert (· ≤ ·) x
  if q'.length > K then q'.dropLast else q'

/-- `rasterize_meshes_cpu.cpp:276-289` without the neighbour case: `emplace_back`, `std::sort`, `pop_back`. -/
def dequePush (K : Nat) (q : List τ) (x : τ) : List τ :=
  let q' := (q ++ [x]).insertionSort (· ≤ ·)
  if q'.length > K then q'.dropLast else q'

end cpu

/-- `rasterize_points_cpu.cpp:84-91` and `rasterize_meshes_cpu.cpp:291-302`: pop the largest item and store it at
the index given by the new size. -/
def drain {γ : Type*} (st : τ → γ) (q : List τ) (out : List γ) : List γ :=
  match _h : q.getLast? with
  | none => out
  | some t => drain st q.dropLast (out.set q.dropLast.length (st t))
termination_by q.length
decreasing_by
  cases q with
  | nil => simp at _h
  | cons a q => simp

section cpu
variable [LinearOrder τ]

theorem pqPush_eq (K : Nat) (q : List τ) (x : τ) (hl : q.length ≤ K) :
    pqPush K q x = (q.orderedInsert (· ≤ ·) x).take K := by
  unfold pqPush
  have h : (q.orderedInsert (· ≤ ·) x).length = q.length + 1 := List.orderedInsert_length _ _ _
  dsimp only
  by_cases h1 : (q.orderedInsert (· ≤ ·) x).length > K
  · rw [if_pos h1, List.dropLast_eq_take]
    congr 1
    omega
  · rw [if_neg h1, List.take_of_length_le (by omega)]

/-- **C29 (queue).** The bounded priority queue holds the `K` smallest items of the stream. -/
theorem pqRun_eq (K : Nat) (l : List τ) : l.foldl (pqPush K) [] = topK K l := by
  induction l using List.reverseRecOn with
  | nil => simp [topK]
  | append_singleton l x ih =>
    rw [List.foldl_append, ih, topK_snoc]
    exact pqPush_eq K _ x (by rw [length_topK]; omega)

theorem dequePush_eq (K : Nat) {q : List τ} (hs : q.Pairwise (· ≤ ·)) (x : τ) : dequePush K q x = pqPush K q x := by
  unfold dequePush pqPush
  have : (q ++ [x]).insertionSort (· ≤ ·) = q.orderedInsert (· ≤ ·) x := by
    rw [insertionSort_perm (List.perm_append_comm), List.singleton_append, List.insertionSort_cons,
      hs.insertionSort_eq]
  rw [this]

theorem dequeRun_eq (K : Nat) (l : List τ) : l.foldl (dequePush K) [] = topK K l := by
  induction l using List.reverseRecOn with
  | nil => simp [topK]
  | append_singleton l x ih =>
    rw [List.foldl_append, ih, topK_snoc]
    show dequePush K _ x = _
    rw [dequePush_eq K (topK_sorted K l), pqPush_eq K _ x (by rw [length_topK]; omega)]

end cpu

theorem drain_eq {γ : Type*} (st : τ → γ) (q : List τ) (out : List γ) (h : q.length ≤ out.length) :
    drain st q out = q.map st ++ out.drop q.length := by
  induction q using List.reverseRecOn generalizing out with
  | nil => unfold drain; simp
  | append_singleton q x ih =>
    unfold drain
    split
    · simp at *
    · rename_i t ht
      simp only [List.getLast?_append, List.getLast?_singleton, Option.some_or, Option.some.injEq] at ht
      subst ht
      simp only [List.dropLast_concat, List.length_append, List.length_singleton] at *
      rw [ih _ (by simp; omega)]
      simp only [List.map_append, List.map_cons, List.map_nil, List.append_assoc]
      congr 1
      rw [List.drop_set]
      simp only [Nat.lt_irrefl, if_false, Nat.sub_self]
      rw [List.drop_eq_getElem_cons (by omega : q.length < out.length)]
      rfl

/-! ## GPU -/

/-- `rasterize_points.cu:123-126`: the array (its first `q_size` entries), `q_max_z`, `q_max_idx`. -/
structure GQ (τ F : Type) where
  q : List τ
  maxZ : F
  maxIdx : ℤ

section gpu
variable {F : Type} [Field F] [LinearOrder F] [IsStrictOrderedRing F] (z : τ → F)

/-- Initial state. -/
def gq0 : GQ τ F := ⟨[], -1000, -1⟩

/-- `q[i] = x`; none if `i` is not in the array. -/
def setAt (q : List τ) (i : ℤ) (x : τ) : Option (List τ) :=
  if 0 ≤ i ∧ i < q.length then some (q.set i.toNat x) else none

/-- The scan of `rasterize_points.cu:71-76`. -/
def rescan (q : List τ) (m : F × ℤ) : F × ℤ :=
  q.zipIdx.foldl (fun m xi => if z xi.1 > m.1 then (z xi.1, (xi.2 : ℤ)) else m) m

/-- `rasterize_points.cu:59-78` and `rasterize_meshes.cu:215-237`. -/
def gpuPush (K : Nat) (s : GQ τ F) (x : τ) : Option (GQ τ F) :=
  if s.q.length < K then
    some (if z x > s.maxZ then ⟨s.q ++ [x], z x, s.q.length⟩ else ⟨s.q ++ [x], s.maxZ, s.maxIdx⟩)
  else if z x < s.maxZ then do
    let q' ← setAt s.q s.maxIdx x
    let m := rescan z q' (z x, s.maxIdx)
    some ⟨q', m.1, m.2⟩
  else some s

/-- The tracked maximum is the maximum. -/
structure Tracked (s : GQ τ F) : Prop where
  empty : s.q = [] → s.maxZ < 0
  max : s.q ≠ [] → ∃ i : Nat, s.maxIdx = i ∧ ∃ h : i < s.q.length, z s.q[i] = s.maxZ
  le : ∀ x ∈ s.q, z x ≤ s.maxZ

theorem rescan_snoc (q : List τ) (x : τ) (m : F × ℤ) :
    rescan z (q ++ [x]) m = if z x > (rescan z q m).1 then (z x, (q.length : ℤ)) else rescan z q m := by
  simp [rescan, List.zipIdx_append]

theorem rescan_spec (q : List τ) (m : F × ℤ) :
    (∀ x ∈ q, z x ≤ (rescan z q m).1) ∧ m.1 ≤ (rescan z q m).1 ∧
      (rescan z q m = m ∨ ∃ i : Nat, (rescan z q m).2 = i ∧ ∃ h : i < q.length, z q[i] = (rescan z q m).1) := by
  induction q using List.reverseRecOn with
  | nil => simp [rescan]
  | append_singleton q x ih =>
    obtain ⟨h1, h2, h3⟩ := ih
    rw [rescan_snoc]
    split
    · rename_i h
      refine ⟨?_, h2.trans h.le, Or.inr ⟨q.length, rfl, by simp, by simp⟩⟩
      intro y hy
      rcases List.mem_append.mp hy with hy | hy
      · exact (h1 y hy).trans h.le
      · rw [List.mem_singleton.mp hy]
    · rename_i h
      refine ⟨?_, h2, ?_⟩
      · intro y hy
        rcases List.mem_append.mp hy with hy | hy
        · exact h1 y hy
        · rw [List.mem_singleton.mp hy]; exact not_lt.mp h
      · rcases h3 with h3 | ⟨i, e, hi, hz⟩
        · exact Or.inl h3
        · refine Or.inr ⟨i, e, by simp; omega, ?_⟩
          rw [List.getElem_append_left hi]; exact hz

/-- One insertion: the queue keeps the smallest depths of its contents and the new item. -/
theorem gpuPush_spec {K : Nat} {s : GQ τ F} (ht : Tracked z s) (hl : s.q.length ≤ K) {x : τ} (hx : 0 ≤ z x) :
    ∃ s' drop, gpuPush z K s x = some s' ∧ Tracked z s' ∧ (s'.q ++ drop).Perm (s.q ++ [x])
      ∧ s'.q.length = min K (s.q.length + 1) ∧ (∀ a ∈ s'.q, ∀ b ∈ drop, z a ≤ z b)
      ∧ (s.q.length = K → ∀ b, (∀ a ∈ s.q, z a ≤ b) → ∀ a ∈ s'.q, z a ≤ b) := by
  unfold gpuPush
  by_cases h1 : s.q.length < K
  · rw [if_pos h1]
    by_cases h2 : z x > s.maxZ
    · rw [if_pos h2]
      refine ⟨_, [], rfl, ⟨by simp, fun _ => ⟨s.q.length, rfl, by simp, by simp⟩, ?_⟩, by simp, by simp; omega, by simp, fun h => by omega⟩
      intro y hy
      rcases List.mem_append.mp hy with hy | hy
      · exact (ht.le y hy).trans h2.le
      · rw [List.mem_singleton.mp hy]
    · rw [if_neg h2]
      refine ⟨_, [], rfl, ⟨by simp, fun _ => ?_, ?_⟩, by simp, by simp; omega, by simp, fun h => by omega⟩
      · have hne : s.q ≠ [] := fun e => h2 ((ht.empty e).trans_le hx)
        obtain ⟨i, e, hi, hz⟩ := ht.max hne
        refine ⟨i, e, by simp; omega, ?_⟩
        simp only [List.getElem_append_left hi]; exact hz
      · intro y hy
        rcases List.mem_append.mp hy with hy | hy
        · exact ht.le y hy
        · rw [List.mem_singleton.mp hy]; exact not_lt.mp h2
  · rw [if_neg h1]
    by_cases h2 : z x < s.maxZ
    · rw [if_pos h2]
      have hne : s.q ≠ [] := fun e => absurd ((ht.empty e).trans_le hx) (not_lt.mpr h2.le)
      obtain ⟨i, e, hi, hz⟩ := ht.max hne
      have hset : setAt s.q s.maxIdx x = some (s.q.set i x) := by
        unfold setAt
        rw [e, if_pos ⟨by omega, by exact_mod_cast hi⟩]
        simp
      obtain ⟨r1, r2, r3⟩ := rescan_spec z (s.q.set i x) (z x, s.maxIdx)
      refine ⟨⟨s.q.set i x, (rescan z (s.q.set i x) (z x, s.maxIdx)).1,
        (rescan z (s.q.set i x) (z x, s.maxIdx)).2⟩, [s.q[i]], ?_, ⟨?_, ?_, r1⟩, ?_, ?_, ?_, ?_⟩
      · rw [hset]; rfl
      · intro h0
        have h0' : s.q.set i x = [] := h0
        have : (s.q.set i x).length = 0 := by rw [h0']; rfl
        simp only [List.length_set] at this; omega
      · intro _
        rcases r3 with r3 | ⟨j, ej, hj, hzj⟩
        · refine ⟨i, by rw [r3]; exact e, by simpa using hi, ?_⟩
          rw [r3]; simp
        · exact ⟨j, ej, hj, hzj⟩
      · have : (s.q.set i x).Perm (x :: s.q.eraseIdx i) := by
          rw [List.set_eq_take_append_cons_drop, if_pos hi, List.eraseIdx_eq_take_drop_succ]
          exact List.perm_middle
        refine (this.append_right _).trans ?_
        rw [List.cons_append]
        refine (List.Perm.cons x ?_).trans (List.perm_append_comm (l₁ := [x]) (l₂ := s.q))
        refine (List.perm_append_comm).trans ?_
        rw [List.singleton_append]
        exact List.getElem_cons_eraseIdx_perm hi
      · simp; omega
      · intro a ha b hb
        rw [List.mem_singleton.mp hb, hz]
        rcases List.mem_or_eq_of_mem_set ha with ha | rfl
        · exact ht.le a ha
        · exact h2.le
      · intro _ b hb a ha
        rcases List.mem_or_eq_of_mem_set ha with ha | rfl
        · exact hb a ha
        · exact h2.le.trans (hz ▸ hb _ (List.getElem_mem hi))
    · rw [if_neg h2]
      refine ⟨s, [x], rfl, ht, List.Perm.refl _, by omega, ?_, fun _ _ h => h⟩
      intro a ha b hb
      rw [List.mem_singleton.mp hb]
      exact (ht.le a ha).trans (not_lt.mp h2)

theorem tracked_gq0 : Tracked z (gq0 : GQ τ F) :=
  ⟨fun _ => by simp only [gq0]; linarith [(by norm_num : (0 : F) < 1000)], fun h => absurd rfl h, by simp [gq0]⟩

/-- **C32.** For every stream with non-negative depths the GPU array ends up with `min K n` items whose depths are
smallest, and no access is out of bounds. -/
theorem gpuRun_spec (K : Nat) (l : List τ) (hl : ∀ x ∈ l, 0 ≤ z x) :
    ∃ s drop, l.foldlM (gpuPush z K) gq0 = some s ∧ Tracked z s ∧ (s.q ++ drop).Perm l
      ∧ s.q.length = min K l.length ∧ ∀ a ∈ s.q, ∀ b ∈ drop, z a ≤ z b := by
  induction l using List.reverseRecOn with
  | nil => exact ⟨gq0, [], rfl, tracked_gq0 z, by simp [gq0], by simp [gq0], by simp⟩
  | append_singleton l x ih =>
    obtain ⟨s, drop, e, ht, hp, hlen, hle⟩ := ih (fun y hy => hl y (by simp [hy]))
    obtain ⟨s', drop', e', ht', hp', hlen', hle', hall⟩ := gpuPush_spec z ht (by omega : s.q.length ≤ K) (hl x (by simp))
    refine ⟨s', drop' ++ drop, ?_, ht', ?_, ?_, ?_⟩
    · rw [List.foldlM_append, e]
      simp [e']
    · rw [← List.append_assoc]
      refine (hp'.append_right drop).trans ?_
      rw [List.append_assoc]
      refine ((List.perm_append_comm (l₁ := [x]) (l₂ := drop)).append_left s.q).trans ?_
      rw [← List.append_assoc]
      exact hp.append_right _
    · rw [hlen', hlen]; simp; omega
    · intro a ha b hb
      rcases List.mem_append.mp hb with hb | hb
      · exact hle' a ha b hb
      · have h6 : (s.q ++ drop).length = l.length := hp.length_eq
        have h7 : 0 < drop.length := List.length_pos_of_mem hb
        simp only [List.length_append] at h6
        exact hall (by omega) (z b) (fun a ha => hle a ha b hb) a ha

end gpu

/-! ## Bubble sort -/

section bubble
variable {κ : Type} [LinearOrder κ] (key : τ → κ)

/-- The inner loop of `BubbleSort`, `rasterization_utils.cuh:57-63`: compare and exchange neighbours at positions
`0 .. m - 1`. -/
def bubblePass : Nat → List τ → List τ
  | m + 1, a :: b :: l => if key b < key a then b :: bubblePass m (a :: l) else a :: bubblePass m (b :: l)
  | _, l => l

/-- `BubbleSort`, `rasterization_utils.cuh:53-65`, with `operator<` comparing the keys. -/
def bubbleSort (l : List τ) : List τ :=
  (List.range (l.length - 1)).foldl (fun l' i => bubblePass key (l.length - i - 1) l') l

theorem bubblePass_perm : ∀ (m : Nat) (l : List τ), (bubblePass key m l).Perm l
  | 0, l => by simp [bubblePass]
  | m + 1, [] => by simp [bubblePass]
  | m + 1, [a] => by simp [bubblePass]
  | m + 1, a :: b :: l => by
    rw [bubblePass]
    split
    · exact ((bubblePass_perm m (a :: l)).cons b).trans (List.Perm.swap a b l)
    · exact (bubblePass_perm m (b :: l)).cons a

/-- One pass over a prefix moves its maximum to its end and leaves the rest alone. -/
theorem bubblePass_max : ∀ (m : Nat) (p s : List τ), p.length = m + 1 →
    ∃ p' x, bubblePass key m (p ++ s) = p' ++ x :: s ∧ (p' ++ [x]).Perm p ∧ ∀ y ∈ p', key y ≤ key x
  | 0, [a], s, _ => ⟨[], a, by simp [bubblePass], by simp, by simp⟩
  | m + 1, a :: b :: p, s, h => by
    simp only [List.cons_append, bubblePass]
    split
    · rename_i hlt
      obtain ⟨p', x, e, hp, hx⟩ := bubblePass_max m (a :: p) s (by simpa using h)
      refine ⟨b :: p', x, by rw [← List.cons_append, e]; rfl, ?_, ?_⟩
      · rw [List.cons_append]
        exact (hp.cons b).trans (List.Perm.swap a b p)
      · intro y hy
        rcases List.mem_cons.mp hy with rfl | hy
        · have ha : a ∈ p' ++ [x] := hp.mem_iff.mpr (by simp)
          rcases List.mem_append.mp ha with ha | ha
          · exact hlt.le.trans (hx a ha)
          · rw [← List.mem_singleton.mp ha]; exact hlt.le
        · exact hx y hy
    · rename_i hlt
      obtain ⟨p', x, e, hp, hx⟩ := bubblePass_max m (b :: p) s (by simpa using h)
      refine ⟨a :: p', x, by rw [← List.cons_append, e]; rfl, ?_, ?_⟩
      · rw [List.cons_append]
        exact hp.cons a
      · intro y hy
        rcases List.mem_cons.mp hy with rfl | hy
        · have hb : b ∈ p' ++ [x] := hp.mem_iff.mpr (by simp)
          rcases List.mem_append.mp hb with hb | hb
          · exact (not_lt.mp hlt).trans (hx b hb)
          · rw [← List.mem_singleton.mp hb]; exact not_lt.mp hlt
        · exact hx y hy

/-- `BubbleSort` sorts. -/
theorem bubbleSort_spec (l : List τ) :
    (bubbleSort key l).Perm l ∧ (bubbleSort key l).Pairwise (fun a b => key a ≤ key b) := by
  have inv : ∀ i ≤ l.length - 1, ∃ p s, (List.range i).foldl (fun l' i => bubblePass key (l.length - i - 1) l') l = p ++ s
      ∧ (p ++ s).Perm l ∧ s.length = i ∧ s.Pairwise (fun a b => key a ≤ key b) ∧ ∀ a ∈ p, ∀ b ∈ s, key a ≤ key b := by
    intro i hi
    induction i with
    | zero => exact ⟨l, [], by simp, by simp, rfl, by simp, by simp⟩
    | succ i ih =>
      obtain ⟨p, s, e, hp, hl, hs, hle⟩ := ih (by omega)
      have hlen := hp.length_eq
      rw [List.length_append] at hlen
      rw [List.range_succ, List.foldl_append, e]
      obtain ⟨p', x, e', hp', hx⟩ := bubblePass_max key (l.length - i - 1) p s (by omega)
      have hmem : ∀ y ∈ p' ++ [x], y ∈ p := fun y hy => hp'.mem_iff.mp hy
      refine ⟨p', x :: s, e', ?_, by simp [hl], ?_, ?_⟩
      · refine List.Perm.trans ?_ hp
        have := hp'.append_right s
        simpa using this
      · exact List.pairwise_cons.mpr ⟨fun b hb => hle x (hmem x (by simp)) b hb, hs⟩
      · intro a ha b hb
        rcases List.mem_cons.mp hb with rfl | hb
        · exact hx a ha
        · exact hle a (hmem a (by simp [ha])) b hb
  obtain ⟨p, s, e, hp, hl, hs, hle⟩ := inv (l.length - 1) le_rfl
  have hlen := hp.length_eq
  rw [List.length_append] at hlen
  unfold bubbleSort
  rw [e]
  refine ⟨hp, ?_⟩
  rw [List.pairwise_append]
  refine ⟨?_, hs, hle⟩
  match p, (by omega : p.length ≤ 1) with
  | [], _ => simp
  | [a], _ => simp

end bubble

section gpu
variable {F : Type} [Field F] [LinearOrder F] [IsStrictOrderedRing F] (z : τ → F)
variable {κ : Type} [LinearOrder κ] (key : τ → κ)

/-- The whole pixel: push all candidates, then sort (`rasterize_points.cu:133-137`, `rasterize_meshes.cu:290-318`). -/
def gpuPixel (K : Nat) (l : List τ) : Option (List τ) := (l.foldlM (gpuPush z K) gq0).map fun s => bubbleSort key s.q

/-- `r` are `K` candidates of smallest depth, in order of depth. -/
structure NearestK (K : Nat) (l r : List τ) : Prop where
  sorted : r.Pairwise fun a b => z a ≤ z b
  length : r.length = min K l.length
  split : ∃ rest, (r ++ rest).Perm l ∧ ∀ a ∈ r, ∀ b ∈ rest, z a ≤ z b

theorem NearestK.depths {K : Nat} {l r : List τ} (h : NearestK z K l r) : r.map z = topK K (l.map z) := by
  apply IsKSmallest.eq
  obtain ⟨rest, hp, hle⟩ := h.split
  refine ⟨List.pairwise_map.mpr h.sorted, by simp [h.length], rest.map z, ?_, ?_⟩
  · rw [← List.map_append]; exact hp.map z
  · intro a ha b hb
    obtain ⟨a', ha', rfl⟩ := List.mem_map.mp ha
    obtain ⟨b', hb', rfl⟩ := List.mem_map.mp hb
    exact hle a' ha' b' hb'

theorem NearestK.mem {K : Nat} {l r : List τ} (h : NearestK z K l r) {x : τ} (hx : x ∈ r) : x ∈ l := by
  obtain ⟨rest, hp, _⟩ := h.split
  exact hp.mem_iff.mp (List.mem_append.mpr (Or.inl hx))

/-- With pairwise distinct depths the nearest `K` are determined, whatever the order of the candidates. -/
theorem NearestK.unique {K : Nat} {l l' r r' : List τ} (hl : l.Perm l') (hd : ∀ a ∈ l, ∀ b ∈ l, z a = z b → a = b)
    (h : NearestK z K l r) (h' : NearestK z K l' r') : r = r' := by
  have e : r.map z = r'.map z := by
    rw [h.depths, h'.depths, topK_perm (hl.map z)]
  have hlen : r.length = r'.length := by simpa using congrArg List.length e
  apply List.ext_getElem hlen
  intro i h1 h2
  have : (r.map z)[i]'(by simpa using h1) = (r'.map z)[i]'(by simpa using h2) := by simp only [e]
  rw [List.getElem_map, List.getElem_map] at this
  exact hd _ (h.mem z (List.getElem_mem h1)) _ (hl.mem_iff.mpr (h'.mem z (List.getElem_mem h2))) this

/-- **C32 (result).** -/
theorem gpuPixel_spec (hk : ∀ a b, key a ≤ key b → z a ≤ z b) (K : Nat) (l : List τ) (hl : ∀ x ∈ l, 0 ≤ z x) :
    ∃ r, gpuPixel z key K l = some r ∧ NearestK z K l r := by
  obtain ⟨s, drop, e, _, hp, hlen, hle⟩ := gpuRun_spec z K l hl
  obtain ⟨b1, b2⟩ := bubbleSort_spec key s.q
  refine ⟨bubbleSort key s.q, by rw [gpuPixel, e]; rfl, b2.imp (fun h => hk _ _ h), by rw [b1.length_eq, hlen], drop,
    (b1.append_right drop).trans hp, ?_⟩
  intro a ha b hb
  exact hle a (b1.mem_iff.mp ha) b hb

/-- The CPU queue also returns the nearest `K`. -/
theorem topK_nearest [LinearOrder τ] (hz : ∀ a b : τ, a ≤ b → z a ≤ z b) (K : Nat) (l : List τ) :
    NearestK z K l (topK K l) := by
  have h := topK_isKSmallest K l
  obtain ⟨rest, hp, hle⟩ := h.split
  exact ⟨h.sorted.imp (fun h => hz _ _ h), h.length, rest, hp, fun a ha b hb => hz _ _ (hle a ha b hb)⟩

end gpu

/-! Examples: items are (depth, index). -/

example : (([(5, 0), (3, 1), (7, 2), (4, 3)].map (fun x : ℚ × ℕ => toLex x)).foldl (pqPush 2) []).map ofLex
    = [(3, 1), (4, 3)] := by
  decide +kernel

example : gpuPixel (fun x : ℚ × ℕ => x.1) (fun x => x.1) 2 [(5, 0), (3, 1), (7, 2), (4, 3)] = some [(3, 1), (4, 3)] := by
  decide +kernel

/-- Equal depths: the CPU keeps the smaller index, the GPU the larger one. -/
theorem gpu_ties : gpuPixel (fun x : ℚ × ℕ => x.1) (fun x => toLex x) 2 [(5, 0), (5, 1), (1, 2)] = some [(1, 2), (5, 1)]
    ∧ (([(5, 0), (5, 1), (1, 2)].map (fun x : ℚ × ℕ => toLex x)).foldl (pqPush 2) []).map ofLex
      = [(1, 2), (5, 0)] := by
  decide +kernel

example : bubbleSort (fun x : ℚ => x) [3, 1, 2] = [1, 2, 3] := by decide +kernel

end P3D.Raster
