/-
The shapes accepted by `packed_to_padded` and `padded_to_packed`: `ops/packed_to_padded.py:68-108` and `158-207`, with the checks of the autograd
functions (`38-47`, `127-136`), around the kernels of `Verif.PackedPadded`.

A tensor is a shape and a function of index lists (`Verif.Tens`); a row of the kernel is the list of the numbers of a row.  Simplifications: values and indices have the types the
checks ask for (`float32`, `int64`, `int`), `first_idxs` has one dimension and, for `padded_to_packed`, the length of the batch.  `none` is a memory access outside the tensors.
-/
import Verif.PackedPaddedProps
import Verif.Tens

set_option linter.unusedSectionVars false

namespace P3D.PackWrap

open P3D.Tens P3D.PackedPadded
open P3D.StructUtils (offset expectedRow flatten_uniform_getElem? flatten_getElem?_offset)

variable {α : Type}

/-- The row of numbers at the index `ix`: `reshape(..., -1)` of a contiguous tensor. -/
def row (t : Ten α) (rest ix : List Nat) : List α := (List.range rest.prod).map (fun c => t.get (ix ++ unflat rest c))

/-- Entry `r` of a row. -/
def entry (zero : α) (rest : List Nat) (rows : List (List α)) (p : Nat) (r : List Nat) : α := ((rows[p]?).bind (fun l => l[flat rest r]?)).getD zero

/-- `packed_to_padded`, `packed_to_padded.py:92-108`; the exception of `reshape(0, -1)` is the one of PyTorch for sizes that cannot be inferred. -/
def packedToPaddedT (zero : α) (t : Ten α) (first : List Nat) (maxSize : Nat) : Option (Except Err (Ten α)) :=
  match t.shape with
  | [] => some (.error .index)
  | F :: rest =>
    if rest ≠ [] ∧ F = 0 then some (.error .runtime)
    else
      (packedToPadded (List.replicate rest.prod zero) ((List.range F).map (fun f => row t rest [f])) first maxSize).map
        (fun rows => .ok ⟨first.length :: maxSize :: rest, fun ix => entry zero rest rows (ix.getD 0 0 * maxSize + ix.getD 1 0) (ix.drop 2)⟩)

/-- `movedim(d, 1)`: the dimension `d` becomes the second one, the others keep their order. -/
def moveIdx (d : Nat) (ix : List Nat) : List Nat := (ix.eraseIdx 1).insertIdx d (ix.getD 1 0)

def movedim (d : Int) (t : Ten α) : Except Err (Ten α) :=
  let n := t.shape.length
  let d' := if d < 0 then d + n else d
  if n < 2 ∨ d' < 0 ∨ (n : Int) ≤ d' then .error .index
  else .ok ⟨(t.shape.eraseIdx d'.toNat).insertIdx 1 (t.shape.getD d'.toNat 0), fun ix => t.get (moveIdx d'.toNat ix)⟩

/-- `padded_to_packed` after the move, `packed_to_padded.py:191-207`; `view(-1, …)` with a dimension of size zero cannot be inferred. -/
def packRows (zero : α) (t : Ten α) (first : List Nat) (num : Nat) : Option (Except Err (Ten α)) :=
  match t.shape with
  | N :: S :: rest =>
    if rest ≠ [] ∧ N * S = 0 then some (.error .runtime)
    else
      (paddedToPacked (List.replicate rest.prod zero) ((List.range (N * S)).map (fun p => row t rest [p / S, p % S])) first S num).map
        (fun rows => if rest.prod = 0 then .error .runtime else .ok ⟨num :: rest, fun ix => entry zero rest rows (ix.getD 0 0) (ix.drop 1)⟩)
  | _ => some (.error .index)

/-- `padded_to_packed`, `packed_to_padded.py:158-207`. -/
def paddedToPackedT (zero : α) (t : Ten α) (first : List Nat) (num : Nat) (d : Int) : Option (Except Err (Ten α)) :=
  match movedim d t with
  | .error e => some (.error e)
  | .ok t => packRows zero t first num

/-! ## Helpers -/

theorem flat_lt {s ix : List Nat} (h : InR s ix) : flat s ix < s.prod := by
  induction s generalizing ix with
  | nil => simp [flat]
  | cons d s ih =>
    obtain ⟨i, jx, rfl, hj, hi⟩ := inR_cons h
    have := ih hj
    rw [flat, if_neg (by omega), List.prod_cons]
    calc i * s.prod + flat s jx < i * s.prod + s.prod := by omega
      _ = (i + 1) * s.prod := by ring
      _ ≤ d * s.prod := Nat.mul_le_mul_right _ hi

theorem unflat_flat {s ix : List Nat} (h : InR s ix) : unflat s (flat s ix) = ix := by
  induction s generalizing ix with
  | nil =>
    cases h
    rfl
  | cons d s ih =>
    obtain ⟨i, jx, rfl, hj, hi⟩ := inR_cons h
    have hlt := flat_lt hj
    rw [flat, if_neg (by omega), unflat, Nat.mul_comm, Nat.mul_add_div (by omega), Nat.div_eq_of_lt hlt, Nat.mul_add_mod, Nat.mod_eq_of_lt hlt, ih hj, Nat.add_zero]

theorem row_get (zero : α) (t : Ten α) {rest ix r : List Nat} (hr : InR rest r) {rows : List (List α)} {p : Nat} (h : rows[p]? = some (row t rest ix)) :
    entry zero rest rows p r = t.get (ix ++ r) := by
  unfold entry row at *
  rw [h, Option.bind_some, List.getElem?_map, List.getElem?_range (flat_lt hr)]
  simp [unflat_flat hr]

theorem entry_zero (zero : α) {rest r : List Nat} (hr : InR rest r) {rows : List (List α)} {p : Nat} (h : rows[p]? = some (List.replicate rest.prod zero)) : entry zero rest rows p r = zero := by
  unfold entry
  rw [h, Option.bind_some, List.getElem?_replicate, if_pos (flat_lt hr)]
  rfl

/-- Where segment `b` starts. -/
def start (lens : List Nat) (b : Nat) : Nat := (lens.take b).sum

/-- The `first_idxs` of segments of given lengths. -/
def firsts (lens : List Nat) : List Nat := (List.range lens.length).map (start lens)

/-- Segments of a list. -/
def cut {β : Type} : List Nat → List β → List (List β)
  | [], _ => []
  | n :: ns, l => l.take n :: cut ns (l.drop n)

theorem cut_spec {β : Type} (lens : List Nat) (l : List β) (h : l.length = lens.sum) : (cut lens l).flatten = l ∧ (cut lens l).map List.length = lens := by
  induction lens generalizing l with
  | nil =>
    rw [List.sum_nil] at h
    rw [List.length_eq_zero_iff.mp h]
    exact ⟨rfl, rfl⟩
  | cons n ns ih =>
    rw [List.sum_cons] at h
    obtain ⟨h1, h2⟩ := ih (l.drop n) (by simp; omega)
    constructor
    · rw [cut, List.flatten_cons, h1, List.take_append_drop]
    · rw [cut, List.map_cons, h2, List.length_take, Nat.min_eq_left (by omega)]

theorem offset_eq {β : Type} {x : List (List β)} {lens : List Nat} (h : x.map List.length = lens) (b : Nat) : offset x b = start lens b := by
  rw [← h]
  simp [offset, start, List.map_take]

theorem firstIdxs_eq {β : Type} {x : List (List β)} {lens : List Nat} (h : x.map List.length = lens) : firstIdxs x = firsts lens := by
  unfold firstIdxs firsts
  rw [← h, List.length_map]
  apply List.map_congr_left
  intro b _
  exact offset_eq rfl b

theorem start_lt {lens : List Nat} {b n i : Nat} (hb : lens[b]? = some n) (hi : i < n) : start lens b + i < lens.sum := by
  induction lens generalizing b with
  | nil => cases hb
  | cons a l ih =>
    cases b with
    | zero =>
      simp only [List.getElem?_cons_zero, Option.some.injEq] at hb
      subst hb
      simp only [start, List.take_zero, List.sum_nil, List.sum_cons]
      omega
    | succ b =>
      have := ih (b := b) (by simpa using hb)
      simp only [start, List.take_succ_cons, List.sum_cons] at *
      omega

/-! ## Padding -/

/-- For every shape: entry `(b, i, …)` of the result is entry `(first[b] + i, …)` of the input for `i` within the segment and zero beyond; trailing dimensions stay as they are. -/
theorem padded_spec (zero : α) (t : Ten α) {F : Nat} {rest : List Nat} (ht : t.shape = F :: rest) (hF : rest = [] ∨ 0 < F) (lens : List Nat) (hl : lens.sum = F) (S : Nat)
    (hS : ∀ n ∈ lens, n ≤ S) :
    ∃ u, packedToPaddedT zero t (firsts lens) S = some (.ok u) ∧ u.shape = lens.length :: S :: rest ∧
      ∀ b n i r, lens[b]? = some n → i < S → InR rest r → u.get (b :: i :: r) = if i < n then t.get ((start lens b + i) :: r) else zero := by
  set rows := (List.range F).map (fun f => row t rest [f]) with hrows
  obtain ⟨hx1, hx2⟩ := cut_spec lens rows (by simp [hrows, hl])
  set x := cut lens rows with hx
  have hxS : ∀ y ∈ x, y.length ≤ S := by
    intro y hy
    apply hS
    rw [← hx2]
    exact List.mem_map_of_mem hy
  have key := packedToPadded_correct (List.replicate rest.prod zero) x S hxS _ (List.Perm.refl _)
  rw [hx1, firstIdxs_eq hx2] at key
  unfold packedToPaddedT
  rw [ht]
  dsimp only
  rw [if_neg (by rintro ⟨h1, h2⟩; rcases hF with h | h; exact h1 h; omega)]
  unfold packedToPadded
  rw [key]
  refine ⟨_, rfl, by simp [firsts], ?_⟩
  intro b n i r hb hi hr
  obtain ⟨hb', hbe⟩ := List.getElem?_eq_some_iff.mp hb
  have hbx : b < x.length := by
    rw [← hx2, List.length_map] at hb'
    exact hb'
  have hxb : x[b].length = n := by
    rw [← hbe]
    have : (x.map List.length)[b]'(by simpa using hbx) = x[b].length := by simp
    rw [← this]
    congr 1
  have hu : ∀ y ∈ x.map (expectedRow S (List.replicate rest.prod zero)), y.length = S := by
    intro y hy
    obtain ⟨z, hz, rfl⟩ := List.mem_map.mp hy
    exact expectedRow_length S _ z (hxS z hz)
  have hget := flatten_uniform_getElem? S _ hu b i (by simpa using hbx) hi
  rw [List.getElem_map, Nat.add_comm] at hget
  show entry zero rest _ (b * S + i) r = _
  by_cases hin : i < n
  · rw [if_pos hin]
    refine row_get zero t (ix := [start lens b + i]) hr ?_
    rw [hget]
    unfold expectedRow
    rw [List.getElem?_append_left (by omega), List.getElem?_eq_getElem (by omega), ← flatten_getElem?_offset x b i hbx (by omega), hx1, offset_eq hx2, hrows, List.getElem?_map,
      List.getElem?_range (by rw [← hl]; exact start_lt hb hin)]
    rfl
  · rw [if_neg hin]
    refine entry_zero zero hr ?_
    rw [hget]
    unfold expectedRow
    rw [List.getElem?_append_right (by omega), List.getElem?_replicate, if_pos (by omega)]

/-- Exactly what is refused: tensors without dimensions, and empty ones with more than one. -/
theorem padded_errors (zero : α) (t : Ten α) (first : List Nat) (S : Nat) :
    (t.shape = [] → packedToPaddedT zero t first S = some (.error .index)) ∧ (∀ d rest, t.shape = 0 :: d :: rest → packedToPaddedT zero t first S = some (.error .runtime)) := by
  constructor
  · intro h
    unfold packedToPaddedT
    rw [h]
  · intro d rest h
    unfold packedToPaddedT
    rw [h]
    dsimp only
    rw [if_pos (by simp)]

/-! ## Packing -/

/-- For every shape: entry `(first[b] + i, …)` of the result is entry `(b, i, …)` of the input with the padded dimension second. -/
theorem packRows_spec (zero : α) (t : Ten α) {S : Nat} {rest : List Nat} (lens : List Nat) (ht : t.shape = lens.length :: S :: rest) (hS : ∀ n ∈ lens, n ≤ S)
    (hne : rest = [] ∨ 0 < lens.length * S) (hr0 : 0 < rest.prod) :
    ∃ u, packRows zero t (firsts lens) lens.sum = some (.ok u) ∧ u.shape = lens.sum :: rest ∧
      ∀ b n i r, lens[b]? = some n → i < n → InR rest r → u.get ((start lens b + i) :: r) = t.get (b :: i :: r) := by
  set g := (List.range lens.length).map (fun b => (List.range S).map (fun i => row t rest [b, i])) with hg
  set x : List (List Unit) := lens.map (fun n => List.replicate n ()) with hx
  have hx2 : x.map List.length = lens := by
    rw [hx, List.map_map]
    conv_rhs => rw [← List.map_id lens]
    apply List.map_congr_left
    intro n _
    simp
  have hgf : (List.range (lens.length * S)).map (fun p => row t rest [p / S, p % S]) = g.flatten := by
    have hgS : ∀ r ∈ g, r.length = S := by
      intro r hr
      obtain ⟨b, -, rfl⟩ := List.mem_map.mp hr
      simp
    have hglen := flatten_uniform_length S g hgS
    rw [show g.length = lens.length by simp [hg]] at hglen
    apply List.ext_getElem?
    intro k
    by_cases hk : k < lens.length * S
    · have hS0 : 0 < S := by
        rcases Nat.eq_zero_or_pos S with h | h
        · subst h
          simp at hk
        · exact h
      have hb : k / S < lens.length := Nat.div_lt_of_lt_mul (by rw [Nat.mul_comm]; exact hk)
      have := flatten_uniform_getElem? S g hgS (k / S) (k % S) (by simpa [hg] using hb) (Nat.mod_lt _ hS0)
      rw [Nat.add_comm, Nat.mul_comm, Nat.div_add_mod] at this
      rw [this, List.getElem?_map, List.getElem?_range hk]
      simp [hg, Nat.mod_lt _ hS0]
    · rw [List.getElem?_eq_none (by simpa using hk), List.getElem?_eq_none (by omega)]
  -- the segments as rows of anything
  obtain ⟨hy1, hy2⟩ := cut_spec lens (List.replicate lens.sum ([] : List α)) (by simp)
  set y := cut lens (List.replicate lens.sum ([] : List α)) with hy
  have hys : ∀ z ∈ y, z.length ≤ S := by
    intro z hz
    apply hS
    rw [← hy2]
    exact List.mem_map_of_mem hz
  have hylen : y.length = lens.length := by
    rw [← hy2, List.length_map]
  have key := paddedToPacked_correct (List.replicate rest.prod zero) y g S (by rw [hylen]; simp [hg]) (by
      intro r hr
      obtain ⟨b, -, rfl⟩ := List.mem_map.mp hr
      simp) hys _ (List.Perm.refl _)
  rw [firstIdxs_eq hy2, hy1, List.length_replicate, hy2] at key
  unfold packRows
  rw [ht]
  dsimp only
  rw [if_neg (by rintro ⟨h1, h2⟩; rcases hne with h | h; exact h1 h; omega), hgf]
  unfold paddedToPacked
  rw [key, Option.map_some, if_neg (by omega)]
  refine ⟨_, rfl, rfl, ?_⟩
  intro b n i r hb hi hr
  obtain ⟨hb', hbe⟩ := List.getElem?_eq_some_iff.mp hb
  have hSn : n ≤ S := hS n (List.mem_of_getElem? hb)
  set z := List.zipWith (fun row n => row.take n) g lens with hz
  have hzl : z.length = lens.length := by simp [hz, hg]
  have hzlen : z.map List.length = lens := by
    apply List.ext_getElem (by simp [hzl])
    intro j h1 h2
    have := hS _ (List.getElem_mem h2)
    simp only [hz, hg, List.getElem_map, List.getElem_zipWith, List.length_take, List.length_map, List.length_range]
    omega
  have hbz : b < z.length := by omega
  have hzb : z[b] = ((List.range S).map (fun i => row t rest [b, i])).take n := by
    simp [hz, hg, hbe]
  show entry zero rest z.flatten (start lens b + i) r = _
  refine row_get zero t (ix := [b, i]) hr ?_
  have h3 : i < z[b].length := by
    rw [hzb]
    simp
    omega
  rw [← offset_eq hzlen b, flatten_getElem?_offset z b i hbz h3]
  congr 1
  simp [hzb]

/-- `movedim(d, 1)` for `d ≥ 1` (also counted from the end): the dimension moved becomes the second, the index is put back in place. -/
theorem movedim_spec (t : Ten α) {n0 S : Nat} {pre post : List Nat} (ht : t.shape = n0 :: (pre ++ S :: post)) (d : Int)
    (hd : d = pre.length + 1 ∨ d = -((post.length : Int) + 1)) :
    ∃ u, movedim d t = .ok u ∧ u.shape = n0 :: S :: (pre ++ post) ∧
      ∀ b i p q, p.length = pre.length → u.get (b :: i :: (p ++ q)) = t.get (b :: (p ++ i :: q)) := by
  have hn : t.shape.length = pre.length + post.length + 2 := by
    rw [ht]
    simp
    omega
  have hd' : (if d < 0 then d + (t.shape.length : Int) else d) = ((pre.length + 1 : Nat) : Int) := by
    rw [hn]
    rcases hd with h | h
    · rw [if_neg (by omega), h]
      push_cast
      rfl
    · rw [if_pos (by omega), h]
      push_cast
      omega
  unfold movedim
  dsimp only
  rw [hd', if_neg (by rw [hn]; push_cast; omega), Int.toNat_natCast]
  have he : ∀ (a : Nat) (p : List Nat) (x : Nat) (q : List Nat), (a :: (p ++ x :: q)).eraseIdx (p.length + 1) = a :: (p ++ q) := by
    intro a p x q
    rw [List.eraseIdx_cons_succ]
    congr 1
    induction p with
    | nil => rfl
    | cons y p ih => simp [List.eraseIdx_cons_succ, ih]
  have hi : ∀ (a : Nat) (p : List Nat) (x : Nat) (q : List Nat), (a :: (p ++ q)).insertIdx (p.length + 1) x = a :: (p ++ x :: q) := by
    intro a p x q
    rw [List.insertIdx_succ_cons]
    congr 1
    induction p with
    | nil => rfl
    | cons y p ih => simp [List.insertIdx_succ_cons, ih]
  refine ⟨_, rfl, ?_, ?_⟩
  · show (t.shape.eraseIdx (pre.length + 1)).insertIdx 1 (t.shape.getD (pre.length + 1) 0) = _
    rw [ht, he]
    have : (n0 :: (pre ++ S :: post)).getD (pre.length + 1) 0 = S := by
      simp [List.getD]
    rw [this]
    rfl
  · intro b i p q hp
    show t.get (moveIdx (pre.length + 1) (b :: i :: (p ++ q))) = _
    unfold moveIdx
    rw [← hp]
    have : (b :: i :: (p ++ q)).eraseIdx 1 = b :: (p ++ q) := rfl
    rw [this]
    have h2 : (b :: i :: (p ++ q)).getD 1 0 = i := rfl
    rw [h2, hi]

/-- `padded_to_packed` over any dimension but the first. -/
theorem packed_spec (zero : α) (t : Ten α) {S : Nat} {pre post : List Nat} (lens : List Nat) (ht : t.shape = lens.length :: (pre ++ S :: post)) (d : Int)
    (hd : d = pre.length + 1 ∨ d = -((post.length : Int) + 1)) (hS : ∀ n ∈ lens, n ≤ S) (hne : pre ++ post = [] ∨ 0 < lens.length * S) (hr0 : 0 < (pre ++ post).prod) :
    ∃ u, paddedToPackedT zero t (firsts lens) lens.sum d = some (.ok u) ∧ u.shape = lens.sum :: (pre ++ post) ∧
      ∀ b n i p q, lens[b]? = some n → i < n → InR pre p → InR post q → u.get ((start lens b + i) :: (p ++ q)) = t.get (b :: (p ++ i :: q)) := by
  obtain ⟨v, hv1, hv2, hv3⟩ := movedim_spec t ht d hd
  obtain ⟨u, hu1, hu2, hu3⟩ := packRows_spec zero v lens hv2 hS hne hr0
  refine ⟨u, ?_, hu2, ?_⟩
  · unfold paddedToPackedT
    rw [hv1]
    exact hu1
  · intro b n i p q hb hi hp hq
    rw [hu3 b n i (p ++ q) hb hi (inR_append hp hq), hv3 b i p q hp.length]

/-- What `padded_to_packed` refuses: fewer than two dimensions, and with three or more any empty one. -/
theorem packed_errors (zero : α) (t : Ten α) (first : List Nat) (num : Nat) :
    (∀ d, t.shape.length < 2 → paddedToPackedT zero t first num d = some (.error .index)) ∧
    (∀ N S r rest, t.shape = N :: S :: r :: rest → N * S = 0 → packRows zero t first num = some (.error .runtime)) ∧
    (∀ N S rest u, t.shape = N :: S :: rest → rest.prod = 0 → packRows zero t first num ≠ some (.ok u)) := by
  refine ⟨?_, ?_, ?_⟩
  · intro d h
    unfold paddedToPackedT movedim
    dsimp only
    rw [if_pos (Or.inl h)]
  · intro N S r rest h h0
    unfold packRows
    rw [h]
    dsimp only
    rw [if_pos ⟨by simp, h0⟩]
  · intro N S rest u h h0
    unfold packRows
    rw [h]
    dsimp only
    split_ifs with h1
    · intro h; cases h
    · intro h
      obtain ⟨rows, -, hr⟩ := Option.map_eq_some_iff.mp h
      cases hr

/-- There and back: for non-empty tensors of any shape, and for empty ones of one dimension, packing undoes padding. -/
theorem roundtrip (zero : α) (t : Ten α) {F : Nat} {rest : List Nat} (ht : t.shape = F :: rest) (lens : List Nat) (hl : lens.sum = F) (S : Nat) (hS : ∀ n ∈ lens, n ≤ S)
    (hne : rest = [] ∨ 0 < F * rest.prod) :
    ∃ u v, packedToPaddedT zero t (firsts lens) S = some (.ok u) ∧ paddedToPackedT zero u (firsts lens) F 1 = some (.ok v) ∧ v.shape = t.shape ∧ ∀ ix, InR t.shape ix → v.get ix = t.get ix := by
  have hF : rest = [] ∨ 0 < F := hne.imp_right (fun h => Nat.pos_of_mul_pos_right h)
  have hr0 : 0 < rest.prod := by
    rcases hne with rfl | h
    · simp
    · exact Nat.pos_of_mul_pos_left h
  obtain ⟨u, hu1, hu2, hu3⟩ := padded_spec zero t ht hF lens hl S hS
  have hsum : ∀ l : List Nat, 0 < l.sum → ∃ n ∈ l, 0 < n := by
    intro l
    induction l with
    | nil => simp
    | cons a l ih =>
      intro h
      rw [List.sum_cons] at h
      by_cases ha : 0 < a
      · exact ⟨a, List.mem_cons_self .., ha⟩
      · obtain ⟨n, hn, h0⟩ := ih (by omega)
        exact ⟨n, List.mem_cons_of_mem _ hn, h0⟩
  have hne' : rest = [] ∨ 0 < lens.length * S := by
    rcases hF with h | h
    · exact Or.inl h
    · obtain ⟨n, hn, h0⟩ := hsum lens (by omega)
      exact Or.inr (Nat.mul_pos (List.length_pos_of_mem hn) (Nat.lt_of_lt_of_le h0 (hS n hn)))
  obtain ⟨v, hv1, hv2, hv3⟩ := packed_spec zero u (pre := []) lens hu2 1 (Or.inl rfl) hS hne' hr0
  refine ⟨u, v, hu1, by rw [← hl]; exact hv1, by rw [hv2, hl, ht]; rfl, ?_⟩
  intro ix hix
  rw [ht] at hix
  obtain ⟨f, r, rfl, hr, hf⟩ := inR_cons hix
  have hloc : ∀ (l : List Nat) (f : Nat), f < l.sum → ∃ b n i, l[b]? = some n ∧ i < n ∧ f = start l b + i := by
    intro l
    induction l with
    | nil => simp
    | cons a l ih =>
      intro f hf
      rw [List.sum_cons] at hf
      by_cases h : f < a
      · exact ⟨0, a, f, rfl, h, by simp [start]⟩
      · obtain ⟨b, n, i, h1, h2, h3⟩ := ih (f - a) (by omega)
        refine ⟨b + 1, n, i, by simpa using h1, h2, ?_⟩
        simp only [start, List.take_succ_cons, List.sum_cons] at *
        omega
  obtain ⟨b, n, i, hb, hi, rfl⟩ := hloc lens f (by omega)
  have h1 := hv3 b n i [] r hb hi List.Forall₂.nil hr
  simp only [List.nil_append] at h1
  rw [h1, hu3 b n i r hb (Nat.lt_of_lt_of_le hi (hS n (List.mem_of_getElem? hb))) hr, if_pos hi]

/-- Two segments (of 2 and 1) of vectors of two numbers, padded to width 2. -/
def exT : Ten Nat := ⟨[3, 2], fun ix => 10 * ix.getD 0 0 + ix.getD 1 0⟩

example : firsts [2, 1] = [0, 2] := rfl
example : ((packedToPaddedT 7 exT [0, 2] 2).bind (fun r => r.toOption)).map (fun u => (u.shape, u.get [0, 1, 1], u.get [1, 0, 1], u.get [1, 1, 0])) = some ([2, 2, 2], 11, 21, 7) := rfl
example : (movedim (-1) (⟨[2, 3, 4], fun ix => ix⟩ : Ten (List Nat))).toOption.map (fun u => (u.shape, u.get [1, 3, 2])) = some ([2, 4, 3], [1, 2, 3]) := rfl

end P3D.PackWrap
