/-
Specification of "the K smallest items of a stream, in ascending order" and the facts about bounded
insertion used for neighbour search and rasterization.
-/
import Mathlib.Data.List.Sort
import Mathlib.Data.List.Perm.Subperm
import Mathlib.Data.List.Induction
import Mathlib.Order.Basic

namespace P3D

variable {α : Type*}

/-- `r` lists the `K` smallest items of `stream` (all if there are fewer) in ascending order. -/
structure IsKSmallest [LE α] (K : Nat) (stream r : List α) : Prop where
  sorted : r.Pairwise (· ≤ ·)
  length : r.length = min K stream.length
  split : ∃ rest, (r ++ rest).Perm stream ∧ ∀ a ∈ r, ∀ b ∈ rest, a ≤ b

/-- Computable form of the specification. -/
def topK [LinearOrder α] (K : Nat) (l : List α) : List α := (l.insertionSort (· ≤ ·)).take K

section
variable [LinearOrder α]

theorem topK_isKSmallest (K : Nat) (l : List α) : IsKSmallest K l (topK K l) := by
  have hs : (l.insertionSort (· ≤ ·)).Pairwise (· ≤ ·) := List.pairwise_insertionSort _ _
  refine ⟨hs.sublist (List.take_sublist _ _), ?_, (l.insertionSort (· ≤ ·)).drop K, ?_, ?_⟩
  · simp [topK, List.length_insertionSort]
  · rw [topK, List.take_append_drop]; exact List.perm_insertionSort _ _
  · rw [← List.take_append_drop K (l.insertionSort (· ≤ ·)), List.pairwise_append] at hs
    exact hs.2.2

theorem sorted_eq_of_perm {l r : List α} (hl : l.Pairwise (· ≤ ·)) (hr : r.Pairwise (· ≤ ·))
    (h : l.Perm r) : l = r :=
  List.Perm.eq_of_pairwise (le := (· ≤ ·)) (fun _ _ _ _ hab hba => le_antisymm hab hba) hl hr h

/-- The specification determines the result. -/
theorem IsKSmallest.eq {K : Nat} {l r : List α} (h : IsKSmallest K l r) : r = topK K l := by
  obtain ⟨rest, hp, hle⟩ := h.split
  have hsort : (r ++ rest.insertionSort (· ≤ ·)).Pairwise (· ≤ ·) := by
    rw [List.pairwise_append]
    refine ⟨h.sorted, List.pairwise_insertionSort _ _, ?_⟩
    intro a ha b hb
    exact hle a ha b ((List.perm_insertionSort _ _).mem_iff.mp hb)
  have : r ++ rest.insertionSort (· ≤ ·) = l.insertionSort (· ≤ ·) := by
    apply sorted_eq_of_perm hsort (List.pairwise_insertionSort _ _)
    exact ((List.Perm.append_left r (List.perm_insertionSort _ _)).trans hp).trans
      (List.perm_insertionSort _ _).symm
  rw [topK, ← this]
  rcases le_or_gt K l.length with hk | hk
  · rw [List.take_append_of_le_length (by rw [h.length]; omega), List.take_of_length_le]
    rw [h.length]; omega
  · have hr : rest = [] := by
      have := hp.length_eq
      rw [List.length_append, h.length] at this
      exact List.length_eq_zero_iff.mp (by omega)
    subst hr
    rw [List.insertionSort_nil, List.append_nil, List.take_of_length_le]
    rw [h.length]; omega

theorem insertionSort_perm {l r : List α} (h : l.Perm r) :
    l.insertionSort (· ≤ ·) = r.insertionSort (· ≤ ·) :=
  sorted_eq_of_perm (List.pairwise_insertionSort _ _) (List.pairwise_insertionSort _ _)
    (((List.perm_insertionSort _ _).trans h).trans (List.perm_insertionSort _ _).symm)

/-- The order of the stream does not matter. -/
theorem topK_perm {K : Nat} {l r : List α} (h : l.Perm r) : topK K l = topK K r := by
  rw [topK, topK, insertionSort_perm h]

theorem take_orderedInsert (K : Nat) (x : α) (s : List α) :
    ((s.orderedInsert (· ≤ ·) x).take K) = ((s.take K).orderedInsert (· ≤ ·) x).take K := by
  induction s generalizing K with
  | nil => simp
  | cons b s ih =>
    cases K with
    | zero => simp
    | succ k =>
      rw [List.take_succ_cons, List.orderedInsert_cons, List.orderedInsert_cons]
      by_cases h : x ≤ b
      · rw [if_pos h, if_pos h, List.take_succ_cons, List.take_succ_cons]
        cases k with
        | zero => simp
        | succ j => simp [List.take_take]
      · rw [if_neg h, if_neg h, List.take_succ_cons, List.take_succ_cons, ih]

/-- One more item: insert it and keep `K`. -/
theorem topK_snoc (K : Nat) (l : List α) (x : α) :
    topK K (l ++ [x]) = ((topK K l).orderedInsert (· ≤ ·) x).take K := by
  have : (l ++ [x]).insertionSort (· ≤ ·) = (l.insertionSort (· ≤ ·)).orderedInsert (· ≤ ·) x := by
    rw [← List.insertionSort_cons]
    exact insertionSort_perm (List.perm_append_comm)
  rw [topK, this, take_orderedInsert]
  rfl

theorem length_topK (K : Nat) (l : List α) : (topK K l).length = min K l.length := by
  simp [topK, List.length_insertionSort]

theorem mem_of_mem_topK {K : Nat} {l : List α} {x : α} (h : x ∈ topK K l) : x ∈ l :=
  (List.perm_insertionSort _ _).mem_iff.mp (List.mem_of_mem_take h)

theorem topK_sorted (K : Nat) (l : List α) : (topK K l).Pairwise (· ≤ ·) :=
  (topK_isKSmallest K l).sorted

/-- An item not smaller than a full buffer's largest entry changes nothing. -/
theorem take_orderedInsert_of_ge {K : Nat} {s : List α} {x : α} (hl : s.length = K)
    (h : ∀ y ∈ s, y < x) : (s.orderedInsert (· ≤ ·) x).take K = s := by
  have : s.orderedInsert (· ≤ ·) x = s ++ [x] := by
    clear hl
    induction s with
    | nil => rfl
    | cons b s ih =>
      have hb := h b (by simp)
      rw [List.orderedInsert_cons, if_neg (not_le.mpr hb), ih (fun y hy => h y (by simp [hy]))]
      rfl
  rw [this, List.take_append_of_le_length (by omega), List.take_of_length_le (by omega)]

/-- Merging: the `K` smallest of a concatenation come from the `K` smallest of the parts. -/
theorem topK_append (K : Nat) (l r : List α) : topK K (topK K l ++ r) = topK K (l ++ r) := by
  induction r using List.reverseRecOn with
  | nil =>
    rw [List.append_nil, List.append_nil]
    rw [topK, (topK_sorted K l).insertionSort_eq, List.take_of_length_le]
    rw [length_topK]; omega
  | append_singleton r x ih =>
    rw [← List.append_assoc, ← List.append_assoc, topK_snoc, topK_snoc, ih]

end

example : IsKSmallest 2 [5, 1, 4, 1] [1, 1] := topK_isKSmallest 2 [5, 1, 4, 1]

end P3D
