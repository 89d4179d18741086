/-
Properties C01, C02, C03 (structures/utils.py).
-/
import Verif.StructUtils
import Mathlib.Tactic.Linarith
import Mathlib.Algebra.BigOperators.Group.List.Basic

namespace P3D.StructUtils

variable {α : Type*}

/-! ### Specification vocabulary (independent of the model) -/

/-- Position of the first row of element `i` in the concatenation. -/
def offset (x : List (List α)) (i : Nat) : Nat := ((x.take i).map List.length).sum

/-! ### Helper lemmas -/

theorem cumsumFrom_eq (acc : Nat) (l : List Nat) :
    cumsumFrom acc l = (List.range l.length).map (fun k => acc + (l.take (k+1)).sum) := by
  induction l generalizing acc with
  | nil => rfl
  | cons a l ih =>
    rw [cumsumFrom, ih, List.length_cons, List.range_succ_eq_map]
    simp [Function.comp_def, Nat.add_assoc]

theorem firstIdx_eq (l : List Nat) (h : l ≠ []) :
    0 :: cumsumFrom 0 l.dropLast = (List.range l.length).map (fun k => (l.take k).sum) := by
  obtain ⟨n, hn⟩ : ∃ n, l.length = n + 1 :=
    ⟨l.length - 1, by have := List.length_pos_iff.mpr h; omega⟩
  rw [cumsumFrom_eq, hn, List.range_succ_eq_map]
  simp only [List.map_cons, List.take_zero, List.sum_nil, List.map_map, List.length_dropLast, hn,
    Nat.add_sub_cancel, Nat.zero_add, List.cons.injEq, true_and]
  apply List.map_congr_left
  intro k hk
  have hk' : k < n := List.mem_range.mp hk
  simp only [Function.comp]
  rw [List.dropLast_eq_take, hn, List.take_take]
  congr 2
  omega

theorem take_sum_mono (l : List Nat) {i j : Nat} (h : i ≤ j) :
    (l.take i).sum ≤ (l.take j).sum := by
  obtain ⟨d, rfl⟩ := Nat.exists_eq_add_of_le h
  rw [List.take_add, List.sum_append]
  omega

theorem take_succ_sum (l : List Nat) {i : Nat} (h : i < l.length) :
    (l.take (i+1)).sum = (l.take i).sum + l[i] := by
  exact List.sum_take_succ l i h

theorem countP_range_le (n i : Nat) (h : i < n) (p : Nat → Bool)
    (hp : ∀ k, k < n → (p k = true ↔ k ≤ i)) :
    (List.range n).countP p = i + 1 := by
  have hn : n = (i+1) + (n - (i+1)) := by omega
  rw [hn, List.range_add, List.countP_append]
  have h1 : (List.range (i+1)).countP p = i + 1 := by
    have := (List.countP_eq_length (p := p) (l := List.range (i+1))).mpr (by
      intro a ha; have := List.mem_range.mp ha; exact (hp a (by omega)).mpr (by omega))
    simpa using this
  have h2 : ((List.range (n - (i+1))).map ((i+1) + ·)).countP p = 0 := by
    rw [List.countP_eq_zero]
    intro a ha
    obtain ⟨b, hb, rfl⟩ := List.mem_map.mp ha
    have hb' := List.mem_range.mp hb
    intro hc
    have := (hp (i+1+b) (by omega)).mp hc
    omega
  rw [h1, h2]

theorem bucketize_first (l : List Nat) (i j : Nat) (hi : i < l.length) (hj : j < l[i]) :
    bucketizeRight ((List.range l.length).map (fun k => (l.take k).sum)) ((l.take i).sum + j)
      = i + 1 := by
  unfold bucketizeRight
  rw [List.countP_map]
  apply countP_range_le _ _ hi
  intro k hk
  simp only [Function.comp, decide_eq_true_eq]
  constructor
  · intro h
    by_contra hlt
    have h1 := take_sum_mono l (show i+1 ≤ k by omega)
    rw [take_succ_sum l hi] at h1
    omega
  · intro h
    have := take_sum_mono l h
    omega

theorem packedToList_go_flatten (x : List (List α)) :
    packedToList.go x.flatten (x.map List.length) = x := by
  induction x with
  | nil => rfl
  | cons a x ih => simp [packedToList.go, ih]

theorem flatten_getElem?_offset (x : List (List α)) (i j : Nat) (hi : i < x.length)
    (hj : j < x[i].length) :
    x.flatten[offset x i + j]? = some (x[i][j]) := by
  induction x generalizing i with
  | nil => simp at hi
  | cons a x ih =>
    cases i with
    | zero =>
      simp only [offset, List.take_zero, List.map_nil, List.sum_nil, Nat.zero_add,
        List.flatten_cons, List.getElem_cons_zero] at hj ⊢
      rw [List.getElem?_append_left hj, List.getElem?_eq_getElem hj]
    | succ i =>
      simp only [List.getElem_cons_succ] at hj ⊢
      have hi' : i < x.length := by simpa using hi
      have := ih i hi' hj
      simp only [offset, List.take_succ_cons, List.map_cons, List.sum_cons, List.flatten_cons]
      rw [List.getElem?_append_right (by omega)]
      rw [← this]; congr 1; simp only [offset]; omega

/-! ### C01 -/

/-- C01: `list_to_packed` fails exactly on the empty list. -/
theorem listToPacked_error_iff (x : List (List α)) :
    listToPacked x = .error .valueError ↔ x = [] := by
  cases x <;> simp [listToPacked]

/-- C01: packing then unpacking with the reported sizes is the identity, for every ragged list. -/
theorem listToPacked_roundtrip (x : List (List α)) (p : Packed α) (h : listToPacked x = .ok p) :
    packedToList p.packed p.numItems = .ok x := by
  cases x with
  | nil => simp [listToPacked] at h
  | cons a x =>
    simp only [listToPacked, List.isEmpty_cons, Bool.false_eq_true, if_false, Except.ok.injEq] at h
    subst h
    have : packedToList.go (a :: x).flatten ((a :: x).map List.length) = a :: x :=
      packedToList_go_flatten (a :: x)
    simp only [packedToList, List.length_flatten, if_true, this]

/-- C01: all four outputs of `list_to_packed` are right, for every list (empty elements included):
row `j` of element `i` sits at `firstIdx[i] + j`, and `toListIdx` there is `i`; sizes are the
element lengths and every packed row is covered (the packed length is the total size). -/
theorem listToPacked_index (x : List (List α)) (p : Packed α) (h : listToPacked x = .ok p) :
    p.numItems = x.map List.length ∧
    p.packed.length = (x.map List.length).sum ∧
    p.toListIdx.length = p.packed.length ∧
    p.firstIdx = (List.range x.length).map (offset x) ∧
    ∀ i j (hi : i < x.length) (hj : j < x[i].length),
      p.packed[offset x i + j]? = some (x[i][j]) ∧
      p.toListIdx[offset x i + j]? = some i := by
  cases hx : x with
  | nil => subst hx; simp [listToPacked] at h
  | cons a y =>
    have hne : x.map List.length ≠ [] := by simp [hx]
    rw [← hx]
    simp only [listToPacked, hx, List.isEmpty_cons, Bool.false_eq_true, if_false,
      Except.ok.injEq] at h
    rw [← hx] at h
    have hfirst := firstIdx_eq (x.map List.length) hne
    subst h
    refine ⟨rfl, by simp [List.length_flatten], by simp [List.length_flatten], ?_, ?_⟩
    · simp only [hfirst, List.length_map]
      apply List.map_congr_left
      intro k _
      simp [offset, List.map_take]
    · intro i j hi hj
      refine ⟨flatten_getElem?_offset x i j hi hj, ?_⟩
      have hoff : offset x i = ((x.map List.length).take i).sum := by
        simp [offset, List.map_take]
      have hli : i < (x.map List.length).length := by simpa using hi
      have hlj : j < (x.map List.length)[i] := by simpa using hj
      have hlt : offset x i + j < (x.map List.length).sum := by
        have h1 := take_succ_sum (x.map List.length) hli
        have h2 := take_sum_mono (x.map List.length) (show i+1 ≤ (x.map List.length).length by
          omega)
        rw [List.take_length] at h2
        rw [hoff]; omega
      simp only [List.getElem?_map, List.getElem?_range hlt, Option.map_some, Option.some.injEq]
      rw [hfirst, hoff, bucketize_first _ i j hli hlj]
      rfl

example : listToPacked [[10, 11], [], [], [12], []] =
    .ok ⟨[10, 11, 12], [2, 0, 0, 1, 0], [0, 2, 2, 2, 3], [0, 0, 3]⟩ := by decide

/-! ### C02 -/

theorem mapM_ok {β γ : Type*} (f : β → Except Err γ) (g : β → γ) (l : List β)
    (h : ∀ b ∈ l, f b = .ok (g b)) : l.mapM f = .ok (l.map g) := by
  induction l with
  | nil => rfl
  | cons b l ih =>
    rw [List.mapM_cons, h b (by simp), ih (fun c hc => h c (by simp [hc]))]
    rfl

theorem mapM_error {β γ : Type*} (f : β → Except Err γ) (l : List β)
    (b : β) (hb : b ∈ l) (hf : ∃ e, f b = .error e) : ∃ e, l.mapM f = .error e := by
  induction l with
  | nil => simp at hb
  | cons c l ih =>
    rw [List.mapM_cons]
    cases hc : f c with
    | error e => exact ⟨e, rfl⟩
    | ok v =>
      rcases List.mem_cons.mp hb with rfl | hb
      · obtain ⟨e, he⟩ := hf; rw [hc] at he; cases he
      · obtain ⟨e, he⟩ := ih hb
        exact ⟨e, by rw [he]; rfl⟩

/-- The padded row the user expects: the data, then copies of the pad value. -/
def expectedRow (S : Nat) (v : α) (y : List α) : List α := y ++ List.replicate (S - y.length) v

theorem foldl_max_ge (l : List Nat) (a : Nat) : a ≤ l.foldl max a ∧ ∀ b ∈ l, b ≤ l.foldl max a := by
  induction l generalizing a with
  | nil => simp
  | cons c l ih =>
    have h := ih (max a c)
    refine ⟨by have := h.1; simp only [List.foldl_cons]; omega, ?_⟩
    intro b hb
    simp only [List.foldl_cons]
    rcases List.mem_cons.mp hb with rfl | hb
    · have := h.1; omega
    · exact h.2 b hb

theorem foldl_max_mem (l : List Nat) (a : Nat) : l.foldl max a = a ∨ l.foldl max a ∈ l := by
  induction l generalizing a with
  | nil => simp
  | cons c l ih =>
    simp only [List.foldl_cons, List.mem_cons]
    rcases ih (max a c) with h | h
    · rw [h]; rcases Nat.le_total a c with h' | h'
      · right; left; omega
      · left; omega
    · right; right; exact h

/-- C02 (explicit size): `list_to_padded(x, pad_size=S)` on a non-empty list whose elements all fit
returns every element followed by pad values up to `S`. -/
theorem listToPadded_size (x : List (List α)) (S : Nat) (v : α) (hx : x ≠ [])
    (hfit : ∀ y ∈ x, y.length ≤ S) :
    listToPadded x (some S) v false = .ok (x.map (expectedRow S v)) := by
  have : x.isEmpty = false := by cases x <;> simp_all
  simp only [listToPadded, Bool.false_eq_true, if_false, this]
  apply mapM_ok
  intro y hy
  simp [padRow, hfit y hy, expectedRow]

/-- C02 (explicit size, rejection): if some element of length other than 1 does not fit, the call
raises. -/
theorem listToPadded_size_reject (x : List (List α)) (S : Nat) (v : α) (y : List α) (hy : y ∈ x)
    (hlong : S < y.length) (h1 : y.length ≠ 1) :
    ∃ e, listToPadded x (some S) v false = .error e := by
  have : x.isEmpty = false := by cases x <;> simp_all
  simp only [listToPadded, Bool.false_eq_true, if_false, this]
  exact mapM_error _ _ y hy ⟨.runtimeError, by simp [padRow, Nat.not_le.mpr hlong, h1]⟩

/-- C02, false without the length-1 exception: a one-row element is silently dropped when
`pad_size` is 0 (torch broadcasts a size-1 dimension into an empty slice). -/
theorem listToPadded_size_silent_loss :
    listToPadded [[7]] (some 0) 0 false = .ok [([] : List Nat)] := by decide

/-- C02 (default size): with at least one non-empty element, `list_to_padded(x)` pads to the largest
length, which is attained. -/
theorem listToPadded_auto (x : List (List α)) (v : α) (hne : ∃ y ∈ x, y ≠ []) :
    ∃ S, (∀ y ∈ x, y.length ≤ S) ∧ (∃ y ∈ x, y.length = S) ∧
      listToPadded x none v false = .ok (x.map (expectedRow S v)) := by
  obtain ⟨y, hy, hy0⟩ := hne
  have hemp : x.isEmpty = false := by cases x <;> simp_all
  have hmem : y.length ∈ (x.filter (fun y => !y.isEmpty)).map List.length := by
    apply List.mem_map_of_mem
    rw [List.mem_filter]
    exact ⟨hy, by cases y <;> simp_all⟩
  cases hL : (x.filter (fun y => !y.isEmpty)).map List.length with
  | nil => rw [hL] at hmem; simp at hmem
  | cons l ls =>
    have hge := foldl_max_ge ls l
    have hall : ∀ z ∈ x, z.length ≤ ls.foldl max l := by
      intro z hz
      cases z with
      | nil => simp
      | cons z0 zs =>
        have : (z0 :: zs).length ∈ l :: ls := by
          rw [← hL]; apply List.mem_map_of_mem; rw [List.mem_filter]; exact ⟨hz, rfl⟩
        rcases List.mem_cons.mp this with h | h
        · rw [h]; exact hge.1
        · exact hge.2 _ h
    refine ⟨ls.foldl max l, hall, ?_, ?_⟩
    · have : ls.foldl max l ∈ l :: ls := by
        rcases foldl_max_mem ls l with h | h
        · rw [h]; simp
        · exact List.mem_cons_of_mem _ h
      rw [← hL] at this
      obtain ⟨z, hz, hz'⟩ := List.mem_map.mp this
      exact ⟨z, (List.mem_filter.mp hz).1, hz'⟩
    · simp only [listToPadded, Bool.false_eq_true, if_false, hemp, hL]
      apply mapM_ok
      intro z hz
      simp [padRow, hall z hz, expectedRow]

/-- C02: without any non-empty element and without `pad_size`, the call raises `ValueError`. -/
theorem listToPadded_auto_reject (x : List (List α)) (v : α) (h : ∀ y ∈ x, y = []) :
    listToPadded x none v false = .error .valueError := by
  have : (x.filter (fun y => !y.isEmpty)).map List.length = [] := by
    simp only [List.map_eq_nil_iff, List.filter_eq_nil_iff]
    intro y hy; simp [h y hy]
  cases x with
  | nil => rfl
  | cons a x => simp [listToPadded, this]

theorem zipWith_take_expected (x : List (List α)) (S : Nat) (v : α) :
    List.zipWith (fun row n => row.take n) (x.map (expectedRow S v)) (x.map List.length) = x := by
  induction x with
  | nil => rfl
  | cons a x ih => simp [ih, expectedRow]

/-- C02: padding (explicit or automatic size) then `padded_to_list` with the lengths is the
identity. -/
theorem listToPadded_roundtrip (x : List (List α)) (pad : Option Nat) (v : α)
    (q : List (List α)) (hfit : ∀ S, pad = some S → ∀ y ∈ x, y.length ≤ S)
    (h : listToPadded x pad v false = .ok q) :
    paddedToList q (some (x.map List.length)) = .ok x := by
  have key : ∃ S, q = x.map (expectedRow S v) := by
    cases pad with
    | some S =>
      have hx : x ≠ [] := by rintro rfl; simp [listToPadded] at h
      rw [listToPadded_size x S v hx (hfit S rfl)] at h
      exact ⟨S, by injection h with h; exact h.symm⟩
    | none =>
      by_cases hne : ∃ y ∈ x, y ≠ []
      · obtain ⟨S, _, _, hS⟩ := listToPadded_auto x v hne
        rw [hS] at h
        exact ⟨S, by injection h with h; exact h.symm⟩
      · push Not at hne
        rw [listToPadded_auto_reject x v hne] at h
        cases h
  obtain ⟨S, rfl⟩ := key
  simp only [paddedToList, List.length_map, ne_eq, not_true_eq_false, if_false,
    zipWith_take_expected]

/-- C02: the `equisized` fast path, when it succeeds on a list with a non-empty element, returns the
same tensor as the general path. -/
theorem listToPadded_equisized_agrees (x q : List (List α)) (v : α) (hne : ∃ y ∈ x, y ≠ [])
    (h : listToPadded x none v true = .ok q) : listToPadded x none v false = .ok q := by
  obtain ⟨S, hall, ⟨y0, hy0, hy0S⟩, hS⟩ := listToPadded_auto x v hne
  rw [hS]
  cases x with
  | nil => simp at hy0
  | cons a x =>
    have h' : (if x.all (fun z => z.length == a.length) then
        (Except.ok (a :: x) : Except Err (List (List α))) else .error .runtimeError) = .ok q := h
    split at h'
    · rename_i hsz
      injection h' with h'
      subst h'
      have hlen : ∀ z ∈ a :: x, z.length = a.length := by
        intro z hz
        rcases List.mem_cons.mp hz with rfl | hz
        · rfl
        · simpa using (List.all_eq_true.mp hsz) z hz
      have hSa : S = a.length := by rw [← hy0S]; exact hlen y0 hy0
      congr 1
      have : (a :: x).map (expectedRow S v) = (a :: x).map id := by
        apply List.map_congr_left
        intro z hz
        simp [expectedRow, hSa, hlen z hz]
      simpa using this
    · cases h'

example : listToPadded [[1, 2], [], [3]] none 0 false = .ok [[1, 2], [0, 0], [3, 0]] ∧
    paddedToList [[1, 2], [0, 0], [3, 0]] (some [2, 0, 1]) = .ok [[1, 2], [], [3]] ∧
    listToPadded [[1, 2], [], [3]] (some 3) 9 false = .ok [[1, 2, 9], [9, 9, 9], [3, 9, 9]] ∧
    listToPadded [[1, 2], [3, 4]] none 0 true = .ok [[1, 2], [3, 4]] := by decide

/-! ### C03 -/

theorem flatten_uniform_getElem? (M : Nat) (x : List (List α)) (hM : ∀ r ∈ x, r.length = M)
    (i j : Nat) (hi : i < x.length) (hj : j < M) :
    x.flatten[j + i * M]? = (x[i])[j]? := by
  have hlen : x[i].length = M := hM _ (List.getElem_mem hi)
  have hoff : offset x i = i * M := by
    have : (x.take i).map List.length = List.replicate i M := by
      rw [List.eq_replicate_iff]
      refine ⟨by simp; omega, ?_⟩
      intro b hb
      obtain ⟨r, hr, rfl⟩ := List.mem_map.mp hb
      exact hM r (List.mem_of_mem_take hr)
    simp [offset, this]
  have := flatten_getElem?_offset x i j hi (by omega)
  rw [hoff] at this
  rw [Nat.add_comm, this, List.getElem?_eq_getElem]

theorem take_eq_map_range (l : List α) (n : Nat) (h : n ≤ l.length) :
    (l.take n).map some = (List.range n).map (fun j => l[j]?) := by
  apply List.ext_getElem
  · simp [h]
  · intro i h1 h2
    have : i < l.length := by simp at h1; omega
    simp [List.getElem?_eq_getElem this]

theorem mapM_lookup_ok (l : List α) (idx : List Nat) (out : List α)
    (h : idx.map (fun i => l[i]?) = out.map some) :
    gather l idx = .ok out := by
  unfold gather
  induction idx generalizing out with
  | nil => cases out <;> simp_all; rfl
  | cons i idx ih =>
    cases out with
    | nil => simp at h
    | cons o out =>
      simp only [List.map_cons, List.cons.injEq] at h
      rw [List.mapM_cons, h.1, ih out h.2]
      rfl

theorem packedIdx_lookup (M : Nat) (x : List (List α)) (s : List Nat)
    (hM : ∀ r ∈ x, r.length = M) (hlen : x.length = s.length) (hs : ∀ v ∈ s, v ≤ M) :
    (packedIdx M s).map (fun i => x.flatten[i]?) =
      (List.zipWith (fun row n => row.take n) x s).flatten.map some := by
  simp only [packedIdx, List.map_flatten, List.map_map]
  congr 1
  apply List.ext_getElem
  · simp [hlen]
  · intro i h1 h2
    have hi : i < s.length := by simpa using h1
    have hix : i < x.length := by omega
    simp only [List.getElem_map, List.getElem_zipIdx, Function.comp, List.map_map,
      List.getElem_zipWith, Nat.zero_add]
    have hv : s[i] ≤ M := hs _ (List.getElem_mem hi)
    have hrow : x[i].length = M := hM _ (List.getElem_mem hix)
    rw [take_eq_map_range _ _ (by omega)]
    apply List.map_congr_left
    intro j hj
    have := List.mem_range.mp hj
    exact flatten_uniform_getElem? M x hM i j hix (by omega)

/-- C03: with `split_size` not exceeding the padded width, `padded_to_packed` is the concatenation of
the `padded_to_list` view. -/
theorem paddedToPacked_split {β : Type*} [DecidableEq β] (M : Nat) (x : List (List (List β)))
    (s : List Nat) (hM : ∀ r ∈ x, r.length = M) (hlen : x.length = s.length)
    (hs : ∀ v ∈ s, v ≤ M) (l : List (List (List β))) (hl : paddedToList x (some s) = .ok l) :
    paddedToPacked M x (some s) none = .ok l.flatten := by
  simp only [paddedToList, hlen, ne_eq, not_true_eq_false, if_false, Except.ok.injEq] at hl
  subst hl
  simp only [paddedToPacked, hlen, ne_eq, not_true_eq_false, if_false]
  exact mapM_lookup_ok _ _ _ (packedIdx_lookup M x s hM hlen hs)

/-- C03, false for `split_size` larger than the padded width: the gather index runs into the next
batch element instead of raising, so rows of element 1 are returned as rows of element 0. -/
theorem paddedToPacked_split_leaks :
    paddedToPacked 1 [[[1]], [[2]]] (some [2, 0]) none = .ok [[1], [2]] ∧
    paddedToList [[[1]], [[2]]] (some [2, 0]) = .ok [[[1]], []] := by decide

/-- C03: with `pad_value`, exactly the rows having an entry different from the pad value survive, in
order. -/
theorem paddedToPacked_padValue {β : Type*} [DecidableEq β] (M : Nat) (x : List (List (List β)))
    (v : β) : paddedToPacked M x none (some v) =
      .ok (x.flatten.filter (fun row => decide (∃ e ∈ row, e ≠ v))) := by
  simp only [paddedToPacked, Except.ok.injEq]
  apply List.filter_congr
  intro row _
  rw [Bool.eq_iff_iff]
  simp

/-- C03 (round trip without pad values): `pad_value` mode recovers the packed data when no genuine row consists
of pad values only. -/
theorem paddedToPacked_padValue_roundtrip {β : Type*} [DecidableEq β] (S D : Nat)
    (x : List (List (List β))) (v : β)
    (hgen : ∀ y ∈ x, ∀ row ∈ y, ∃ e ∈ row, e ≠ v) :
    paddedToPacked S (x.map (expectedRow S (List.replicate D v))) none (some v)
      = .ok x.flatten := by
  rw [paddedToPacked_padValue]
  congr 1
  induction x with
  | nil => rfl
  | cons a x ih =>
    rw [List.map_cons, List.flatten_cons, List.filter_append,
      ih (fun y hy => hgen y (List.mem_cons_of_mem _ hy)), List.flatten_cons]
    congr 1
    rw [expectedRow, List.filter_append]
    have h1 : a.filter (fun row => decide (∃ e ∈ row, e ≠ v)) = a := by
      rw [List.filter_eq_self]
      intro row hrow
      exact decide_eq_true (hgen a (by simp) row hrow)
    have h2 : (List.replicate (S - a.length) (List.replicate D v)).filter
        (fun row => decide (∃ e ∈ row, e ≠ v)) = [] := by
      rw [List.filter_eq_nil_iff]
      intro row hrow
      rw [List.eq_of_mem_replicate hrow]
      simp only [decide_eq_true_eq, not_exists, not_and, not_not]
      intro e he
      exact List.eq_of_mem_replicate he
    rw [h1, h2, List.append_nil]

/-- C03: the restriction is needed — a genuine all-zero row (a vertex at the origin) is lost. -/
theorem paddedToPacked_padValue_lossy :
    listToPadded [[[0, 0, 0], [1, 2, 3]], [[4, 5, 6]]] none [0, 0, 0] false
      = .ok [[[0, 0, 0], [1, 2, 3]], [[4, 5, 6], [0, 0, 0]]] ∧
    paddedToPacked 2 [[[0, 0, 0], [1, 2, 3]], [[4, 5, 6], [0, 0, 0]]] none (some 0)
      = .ok [[1, 2, 3], [4, 5, 6]] := by decide

/-- C03: giving both arguments is rejected. -/
theorem paddedToPacked_both_rejected {β : Type*} [DecidableEq β] (M : Nat)
    (x : List (List (List β))) (s : List Nat) (v : β) :
    paddedToPacked M x (some s) (some v) = .error .valueError := rfl

example : paddedToPacked 2 [[[1], [2]], [[3], [0]]] (some [2, 1]) none = .ok [[1], [2], [3]] ∧
    paddedToPacked 2 [[[1], [2]], [[3], [0]]] none (some 0) = .ok [[1], [2], [3]] := by decide

end P3D.StructUtils
