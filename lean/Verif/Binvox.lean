/-
Binvox files and bounding boxes: `read_binvox_coords`, `_compute_idxs`, `_read_binvox_header`, `align_bbox` of `datasets/r2n2/utils.py:158-350`.

Bytes of the header are characters, those of the data are numbers.  `int` and `float` are the parsers of `Text`.  Indices and sums are unbounded integers
(64 bit in the code).  Not modelled: conversion of coordinates to 32 bit floats.
-/
import Mathlib.Data.List.Basic
import Mathlib.Data.List.Range
import Mathlib.Algebra.Order.Field.Basic
import Mathlib.Tactic.Linarith
import Mathlib.Tactic.LinearCombination
import Mathlib.Tactic.FieldSimp
import Mathlib.Tactic.Ring
import Verif.Text

set_option linter.unusedSectionVars false

namespace P3D.Binvox

open Text

inductive Err | value | index | float
deriving DecidableEq, Repr

/-! ### The code -/

/-- Tensors' `cumsum`. -/
def cumsum (a : Int) : List Int → List Int
  | [] => []
  | x :: l => (a + x) :: cumsum (a + x) l

/-- The runs of ones: end index and length (utils.py:231-240), from the end of the previous run. -/
def onesFrom (s : Int) : List (Nat × Nat) → List (Int × Int)
  | [] => []
  | (v, c) :: l => if v = 1 then (s + c, (c : Int)) :: onesFrom (s + c) l else onesFrom (s + c) l

/-- What `delta[pos] += val` adds at index `k`: entries are read before and written in order, so of several entries for an index the last counts. -/
def added (k : Int) (t : List (Int × Int)) (a : Int) : Int := t.foldl (fun acc e => if e.1 = k then e.2 else acc) a

/-- `_compute_idxs` (utils.py:206-256) from values and counts. -/
def computeIdxs (runs : List (Nat × Nat)) : Except Err (List Int) :=
  let ones := onesFrom 0 runs
  let ends := ones.map Prod.fst
  let counts := ones.map Prod.snd
  let starts := ones.map fun e => e.1 - e.2
  let total := counts.sum
  match starts with
  | [] => .error .index
  | s0 :: srest =>
    let pos := (cumsum 0 counts).dropLast
    let val := List.zipWith (fun a b => a - b) srest ends.dropLast
    if total ≤ 0 then .error .index
    else if pos.any (fun p => decide (total ≤ p)) then .error .index
    else .ok (cumsum 0 ((List.range total.toNat).map fun (k : Nat) => (if k = 0 then s0 else 1) + added (k : Int) (pos.zip val) 0))

/-- Values at even, counts at odd positions (line 193); an odd number of bytes makes the mask too long. -/
def pairs : List Nat → Option (List (Nat × Nat))
  | [] => some []
  | [_] => none
  | v :: c :: l => (pairs l).map ((v, c) :: ·)

/-- Lines 197-201, with whole numbers or (since `//` is floor division) with floats. -/
def coords (size i : Int) : Int × Int × Int := (i / (size * size), i % (size * size) % size, i % (size * size) / size)

/-- Lines 275-320. -/
def header (l1 l2 l3 l4 l5 : Str) : Except Err (Int × List ℚ × ℚ) :=
  if strip l1 ≠ "#binvox 1".toList then .error .value
  else if startsWith "dim ".toList (strip l2) = false then .error .value
  else
    match (splitOn ' ' (strip l2)).tail.mapM parseInt with
    | some [a, b, c] =>
      if a ≠ b ∨ a ≠ c then .error .value
      else if startsWith "translate ".toList (strip l3) = false then .error .value
      else if (splitOn ' ' (strip l3)).length ≠ 4 then .error .value
      else
        match (splitOn ' ' (strip l3)).tail.mapM parseFloat with
        | none => .error .value
        | some t =>
          if startsWith "scale ".toList (strip l4) = false then .error .value
          else
            match splitOn ' ' (strip l4) with
            | [_, x] =>
              match parseFloat x with
              | none => .error .float
              | some q => if strip l5 ≠ "data".toList then .error .value else .ok (a, t, q)
            | _ => .error .value
    | _ => .error .value

/-- `read_binvox_coords` on the five lines and the bytes after them. -/
def readCoords (l1 l2 l3 l4 l5 : Str) (data : List Nat) : Except Err (List (Int × Int × Int)) :=
  match header l1 l2 l3 l4 l5 with
  | .error e => .error e
  | .ok (size, _, _) =>
    match pairs data with
    | none => .error .index
    | some runs =>
      match computeIdxs runs with
      | .error e => .error e
      | .ok idxs => .ok (idxs.map (coords size))

/-! ### Specification -/

/-- The dense grid of a run length code. -/
def dense (runs : List (Nat × Nat)) : List Nat := runs.flatMap fun r => List.replicate r.2 r.1

/-- The ranges of ones. -/
def ranges (rs : List (Int × Int)) : List Int := rs.flatMap fun e => (List.range e.2.toNat).map fun (k : Nat) => e.1 - e.2 + k

/-- The entries of delta as a sequence of runs: the step to the run, then steps of one. -/
def deltas (e : Int) : List (Int × Int) → List Int
  | [] => []
  | r :: l => (1 + (r.1 - r.2 - e)) :: List.replicate (r.2.toNat - 1) 1 ++ deltas r.1 l

/-- The table of corrections. -/
def table (o e : Int) : List (Int × Int) → List (Int × Int)
  | [] => []
  | r :: l => (o, r.1 - r.2 - e) :: table (o + r.2) r.1 l

theorem cumsum_append (a : Int) (l m : List Int) : cumsum a (l ++ m) = cumsum a l ++ cumsum (a + l.sum) m := by
  induction l generalizing a with
  | nil => simp [cumsum]
  | cons x l ih => simp [cumsum, ih, add_assoc]

theorem cumsum_ones (a : Int) (n : Nat) : cumsum a (List.replicate n 1) = (List.range n).map fun (k : Nat) => a + 1 + k := by
  induction n generalizing a with
  | zero => rfl
  | succ n ih =>
    rw [List.replicate_succ, cumsum, ih, List.range_succ_eq_map, List.map_cons, List.map_map]
    congr 1
    · push_cast
      ring
    · apply List.map_congr_left
      intro k _
      simp only [Function.comp_apply, Nat.succ_eq_add_one]
      push_cast
      ring

theorem cumsum_deltas (rs : List (Int × Int)) (e : Int) (h : ∀ r ∈ rs, 0 < r.2) : cumsum (e - 1) (deltas e rs) = ranges rs := by
  induction rs generalizing e with
  | nil => rfl
  | cons r l ih =>
    have hr := h r List.mem_cons_self
    obtain ⟨c, hc⟩ : ∃ c : Nat, r.2 = c + 1 := ⟨(r.2 - 1).toNat, by omega⟩
    have e1 : r.2.toNat - 1 = c := by omega
    have e2 : r.2.toNat = c + 1 := by omega
    have key : ranges (r :: l) = (List.range (c + 1)).map (fun (k : Nat) => r.1 - r.2 + k) ++ ranges l := by
      simp only [ranges, List.flatMap_cons, e2]
    rw [key, deltas, e1, List.cons_append, cumsum, cumsum_append, cumsum_ones, List.range_succ_eq_map, List.map_cons, List.map_map, List.cons_append]
    congr 1
    · push_cast
      ring
    · congr 1
      · apply List.map_congr_left
        intro k _
        simp only [Function.comp_apply, Nat.succ_eq_add_one]
        push_cast
        ring
      · have := ih r.1 fun r' hr' => h r' (List.mem_cons_of_mem _ hr')
        rw [← this]
        congr 1
        simp [hc]
        ring

theorem added_miss (k : Int) (t : List (Int × Int)) (a : Int) (h : ∀ e ∈ t, e.1 ≠ k) : added k t a = a := by
  unfold added
  induction t generalizing a with
  | nil => rfl
  | cons e t ih =>
    rw [List.foldl_cons, if_neg (h e List.mem_cons_self)]
    exact ih a fun e' he' => h e' (List.mem_cons_of_mem _ he')

theorem added_cons (k : Int) (e : Int × Int) (t : List (Int × Int)) (a : Int) : added k (e :: t) a = added k t (if e.1 = k then e.2 else a) := rfl

theorem table_keys (rs : List (Int × Int)) (o e : Int) (h : ∀ r ∈ rs, 0 < r.2) : ∀ x ∈ table o e rs, o ≤ x.1 := by
  induction rs generalizing o e with
  | nil => simp [table]
  | cons r l ih =>
    intro x hx
    rcases List.mem_cons.mp hx with rfl | hx
    · exact le_refl _
    · have := ih (o + r.2) r.1 (fun r' hr' => h r' (List.mem_cons_of_mem _ hr')) x hx
      have := h r List.mem_cons_self
      omega

theorem sum_nonneg (rs : List (Int × Int)) (h : ∀ r ∈ rs, 0 < r.2) : 0 ≤ (rs.map Prod.snd).sum := by
  apply List.sum_nonneg
  intro x hx
  obtain ⟨r, hr, rfl⟩ := List.mem_map.mp hx
  exact (h r hr).le

/-- Adding the corrections to a list of ones gives the runs. -/
theorem scatter_deltas (rs : List (Int × Int)) (o e : Int) (h : ∀ r ∈ rs, 0 < r.2) :
    ((List.range (rs.map Prod.snd).sum.toNat).map fun (k : Nat) => 1 + added (o + k) (table o e rs) 0) = deltas e rs := by
  induction rs generalizing o e with
  | nil => rfl
  | cons r l ih =>
    have hr := h r List.mem_cons_self
    have hl : ∀ r' ∈ l, 0 < r'.2 := fun r' hr' => h r' (List.mem_cons_of_mem _ hr')
    obtain ⟨c, hc⟩ : ∃ c : Nat, r.2 = c + 1 := ⟨(r.2 - 1).toNat, by omega⟩
    have hs := sum_nonneg l hl
    have e1 : ((r :: l).map Prod.snd).sum.toNat = (c + 1) + (l.map Prod.snd).sum.toNat := by
      rw [List.map_cons, List.sum_cons, hc]
      omega
    rw [e1, List.range_add, List.map_append, List.map_map, deltas, ← ih (o + r.2) r.1 hl, List.range_succ_eq_map, List.map_cons, List.map_map, table]
    congr 1
    · rw [show r.2.toNat - 1 = c by omega]
      congr 1
      · rw [added_cons, if_pos (by simp), added_miss]
        intro x hx
        have := table_keys l (o + r.2) r.1 hl x hx
        simp
        omega
      · rw [List.eq_replicate_iff]
        refine ⟨by simp, ?_⟩
        intro b hb
        obtain ⟨k, hk, rfl⟩ := List.mem_map.mp hb
        have hk' := List.mem_range.mp hk
        simp only [Function.comp_apply, Nat.succ_eq_add_one]
        rw [added_cons, if_neg (by simp; omega), added_miss]
        · rfl
        · intro x hx
          have := table_keys l (o + r.2) r.1 hl x hx
          push_cast
          omega
    · apply List.map_congr_left
      intro k _
      simp only [Function.comp_apply]
      rw [added_cons, if_neg (by push_cast; omega), hc]
      push_cast
      congr 2
      ring

theorem zip_table (r : Int × Int) (l : List (Int × Int)) (o e : Int) :
    ((cumsum o ((r :: l).map Prod.snd)).dropLast).zip (List.zipWith (fun a b => a - b) (l.map fun e => e.1 - e.2) ((r :: l).map Prod.fst).dropLast) =
      (table o e (r :: l)).tail := by
  induction l generalizing r o e with
  | nil => simp [cumsum, table]
  | cons r' l ih =>
    have := ih r' (o + r.2) r.1
    simp only [table, List.tail_cons] at this ⊢
    rw [← this]
    simp [cumsum]

theorem cumsum_lt (rs : List (Int × Int)) (o : Int) (h : ∀ r ∈ rs, 0 < r.2) :
    ∀ p ∈ (cumsum o (rs.map Prod.snd)).dropLast, p < o + (rs.map Prod.snd).sum := by
  induction rs generalizing o with
  | nil => simp [cumsum]
  | cons r l ih =>
    have hl : ∀ r' ∈ l, 0 < r'.2 := fun r' hr' => h r' (List.mem_cons_of_mem _ hr')
    cases l with
    | nil => simp [cumsum]
    | cons r' l =>
      intro p hp
      have hr' := hl r' List.mem_cons_self
      have hs := sum_nonneg l fun x hx => hl x (List.mem_cons_of_mem _ hx)
      have e : (cumsum o ((r :: r' :: l).map Prod.snd)).dropLast = (o + r.2) :: (cumsum (o + r.2) ((r' :: l).map Prod.snd)).dropLast := by
        simp [cumsum]
      rw [e] at hp
      rcases List.mem_cons.mp hp with rfl | hp
      · simp only [List.map_cons, List.sum_cons]
        omega
      · have := ih (o + r.2) hl p hp
        simp only [List.map_cons, List.sum_cons] at this ⊢
        omega

theorem ones_pos (runs : List (Nat × Nat)) (s : Int) (h : ∀ r ∈ runs, r.1 = 1 → 0 < r.2) : ∀ e ∈ onesFrom s runs, 0 < e.2 := by
  induction runs generalizing s with
  | nil => simp [onesFrom]
  | cons r l ih =>
    have hl := ih (s + r.2) fun r' hr' => h r' (List.mem_cons_of_mem _ hr')
    intro e he
    rw [onesFrom] at he
    split at he
    · rename_i hv
      rcases List.mem_cons.mp he with rfl | he
      · have := h r List.mem_cons_self hv
        simpa using this
      · exact hl e he
    · exact hl e he

/-- The ranges of ones are the positions of ones in the dense grid. -/
theorem ranges_dense (runs : List (Nat × Nat)) (s : Nat) : ranges (onesFrom s runs) =
    ((List.range' s (dense runs).length).filter fun i => (dense runs)[i - s]? == some 1).map fun (i : Nat) => (i : Int) := by
  induction runs generalizing s with
  | nil => simp [onesFrom, ranges, dense]
  | cons r l ih =>
    obtain ⟨v, c⟩ := r
    have ed : dense ((v, c) :: l) = List.replicate c v ++ dense l := by simp [dense]
    have e2 : (List.range' (s + c) (dense l).length).filter (fun i => (dense ((v, c) :: l))[i - s]? == some 1) =
        (List.range' (s + c) (dense l).length).filter (fun i => (dense l)[i - (s + c)]? == some 1) := by
      apply List.filter_congr
      intro i hi
      have := List.mem_range'_1.mp hi
      rw [ed, List.getElem?_append_right (by simp; omega)]
      simp only [List.length_replicate]
      rw [show i - s - c = i - (s + c) by omega]
    have e1 : (List.range' s c).filter (fun i => (dense ((v, c) :: l))[i - s]? == some 1) = if v = 1 then List.range' s c else [] := by
      have hcong : (List.range' s c).filter (fun i => (dense ((v, c) :: l))[i - s]? == some 1) = (List.range' s c).filter (fun _ => v == 1) := by
        apply List.filter_congr
        intro i hi
        have := List.mem_range'_1.mp hi
        rw [ed, List.getElem?_append_left (by simp; omega), List.getElem?_replicate, if_pos (by omega)]
        rfl
      rw [hcong]
      by_cases hv : v = 1
      · subst hv
        simp
      · simp [hv]
    rw [ed, List.length_append, List.length_replicate, ← List.range'_append_1, List.filter_append, List.map_append, ← ed, e2, e1, onesFrom]
    have ih' := ih (s + c)
    push_cast at ih'
    rw [← ih']
    by_cases hv : v = 1
    · rw [if_pos hv, if_pos hv]
      simp only [ranges, List.flatMap_cons]
      congr 1
      rw [List.range'_eq_map_range, List.map_map]
      simp
    · rw [if_neg hv, if_neg hv]
      simp

/-- The positions of ones, in order. -/
def onesOf (g : List Nat) : List Int := ((List.range g.length).filter fun i => g[i]? == some 1).map fun (i : Nat) => (i : Int)

theorem ones_nonempty (runs : List (Nat × Nat)) (s : Int) : (∃ r ∈ runs, r.1 = 1) ↔ onesFrom s runs ≠ [] := by
  induction runs generalizing s with
  | nil => simp [onesFrom]
  | cons r l ih =>
    obtain ⟨v, c⟩ := r
    rw [onesFrom]
    by_cases hv : v = 1
    · simp [hv]
    · rw [if_neg hv, ← ih (s + c)]
      simp [hv]

/-- The vectorized computation gives the positions of the ones in the dense grid, in order, if runs of ones are not empty and there is one. -/
theorem computeIdxs_spec (runs : List (Nat × Nat)) (h : ∀ r ∈ runs, r.1 = 1 → 0 < r.2) (hne : ∃ r ∈ runs, r.1 = 1) :
    computeIdxs runs = .ok (onesOf (dense runs)) := by
  have hpos := ones_pos runs 0 h
  have hnil := (ones_nonempty runs 0).mp hne
  have hd := ranges_dense runs 0
  simp only [Nat.cast_zero, Nat.sub_zero] at hd
  rw [show onesOf (dense runs) = ranges (onesFrom 0 runs) by rw [hd, onesOf, List.range_eq_range']]
  unfold computeIdxs
  dsimp only
  generalize onesFrom 0 runs = os at *
  cases os with
  | nil => exact absurd rfl hnil
  | cons r l =>
    have hr := hpos r List.mem_cons_self
    have hs := sum_nonneg l fun x hx => hpos x (List.mem_cons_of_mem _ hx)
    have htot : 0 < ((r :: l).map Prod.snd).sum := by
      rw [List.map_cons, List.sum_cons]
      omega
    rw [List.map_cons (f := fun e : Int × Int => e.1 - e.2)]
    dsimp only
    rw [if_neg (by omega), if_neg]
    · congr 1
      rw [zip_table r l 0 1, ← cumsum_deltas (r :: l) 1 hpos, ← scatter_deltas (r :: l) 0 1 hpos]
      congr 1
      apply List.map_congr_left
      intro k _
      rw [table, List.tail_cons, added_cons]
      by_cases hk : k = 0
      · subst hk
        have hm : ∀ (a : Int), added ((0 : Nat) : Int) (table (0 + r.2) r.1 l) a = a := by
          intro a
          apply added_miss
          intro x hx
          have := table_keys l (0 + r.2) r.1 (fun x hx => hpos x (List.mem_cons_of_mem _ hx)) x hx
          push_cast
          omega
        rw [if_pos rfl, hm, if_pos (by simp), show (0 : Int) + ((0 : Nat) : Int) = ((0 : Nat) : Int) by simp, hm]
        ring
      · rw [if_neg hk, if_neg (by omega), zero_add, zero_add]
    · simp only [List.any_eq_true, decide_eq_true_eq, not_exists, not_and, not_le]
      intro p hp
      have := cumsum_lt (r :: l) 0 hpos p hp
      simpa using this

/-- A grid without ones is an IndexError. -/
theorem computeIdxs_empty (runs : List (Nat × Nat)) (h : ∀ r ∈ runs, r.1 ≠ 1) : computeIdxs runs = .error .index := by
  have : onesFrom 0 runs = [] := by
    by_contra hne
    obtain ⟨r, hr, h1⟩ := (ones_nonempty runs 0).mpr hne
    exact h r hr h1
  unfold computeIdxs
  rw [this]
  rfl

/-- Coordinates are the digits of the index: x slowest, then z, then y. -/
theorem coords_spec (size i x y z : Int) (hs : 0 < size) : coords size i = (x, y, z) ↔ i = (x * size + z) * size + y ∧ 0 ≤ y ∧ y < size ∧ 0 ≤ z ∧ z < size := by
  unfold coords
  simp only [Prod.mk.injEq]
  have hss : 0 < size * size := by positivity
  constructor
  · rintro ⟨rfl, rfl, rfl⟩
    have h1 := Int.mul_ediv_add_emod i (size * size)
    have h2 := Int.mul_ediv_add_emod (i % (size * size)) size
    have h3 := Int.emod_nonneg (i % (size * size)) hs.ne'
    have h4 := Int.emod_lt_of_pos (i % (size * size)) hs
    have h5 := Int.emod_nonneg i hss.ne'
    have h6 := Int.emod_lt_of_pos i hss
    refine ⟨by linear_combination -h1 - h2, h3, h4, Int.ediv_nonneg h5 hs.le, Int.ediv_lt_of_lt_mul hs h6⟩
  · rintro ⟨rfl, h1, h2, h3, h4⟩
    have e0 : (x * size + z) * size + y = (z * size + y) + x * (size * size) := by ring
    have b1 : 0 ≤ z * size + y := by positivity
    have b2 : z * size + y < size * size := by nlinarith
    rw [e0, Int.add_mul_ediv_right _ _ hss.ne', Int.add_mul_emod_self_right, Int.ediv_eq_zero_of_lt b1 b2, Int.emod_eq_of_lt b1 b2, add_comm (z * size) y,
      Int.add_mul_emod_self_right, Int.emod_eq_of_lt h1 h2, Int.add_mul_ediv_right _ _ hs.ne', Int.ediv_eq_zero_of_lt h1 h2]
    simp

theorem pairs_spec (runs : List (Nat × Nat)) : pairs (runs.flatMap fun r => [r.1, r.2]) = some runs := by
  induction runs with
  | nil => rfl
  | cons r l ih => simp [pairs, ih]

theorem pairs_odd (l : List Nat) (h : l.length % 2 = 1) : pairs l = none := by
  induction l using pairs.induct with
  | case1 => simp at h
  | case2 => rfl
  | case3 v c l ih =>
    rw [pairs, ih (by simp at h; omega)]
    rfl

/-- A file as it is written: the lines of its header. -/
def dimLine (a b c : Int) : Str := "dim ".toList ++ join [' '] [fmtInt a, fmtInt b, fmtInt c]

def floatsLine (name : Str) (k : Nat) (xs : List ℚ) : Str := name ++ join [' '] (xs.map (fmtFloat k))

theorem word_ends {w : Str} (h : IsWord w) : (∀ c r, w = c :: r → isSpace c = false) ∧ (∀ c r, w = r ++ [c] → isSpace c = false) :=
  ⟨fun c r e => h.2 c (by simp [e]), fun c r e => h.2 c (by simp [e])⟩

theorem split_space {ws : List Str} (hne : ws ≠ []) (h : ∀ w ∈ ws, IsWord w) : splitOn ' ' (join [' '] ws) = ws :=
  splitOn_join hne fun w hw hc => by
    have := (h w hw).2 ' ' hc
    simp [isSpace] at this

theorem strip_words {ws : List Str} (h : ∀ w ∈ ws, IsWord w) : strip (join [' '] ws) = join [' '] ws := by
  cases ws with
  | nil => rfl
  | cons w ws =>
    apply strip_id
    · intro c r hr
      obtain ⟨hw, hc⟩ := h w List.mem_cons_self
      cases w with
      | nil => exact absurd rfl hw
      | cons a w =>
        cases ws with
        | nil =>
          simp [join] at hr
          exact hc c (by simp [hr.1])
        | cons b ws =>
          rw [join_cons_cons] at hr
          simp at hr
          exact hc c (by simp [hr.1])
    · have key : ∀ (ws : List Str) (w : Str), (∀ x ∈ w :: ws, IsWord x) → ∀ c r, (join [' '] (w :: ws)).reverse = c :: r → isSpace c = false := by
        intro ws
        induction ws with
        | nil =>
          intro w hw c r hr
          simp [join] at hr
          exact (hw w List.mem_cons_self).2 c (by have : c ∈ w.reverse := by rw [hr]; simp
                                                  simpa using this)
        | cons b ws ih =>
          intro w hw c r hr
          rw [join_cons_cons, List.reverse_append] at hr
          have hb : ∀ x ∈ b :: ws, IsWord x := fun x hx => hw x (List.mem_cons_of_mem _ hx)
          cases hj : (join [' '] (b :: ws)).reverse with
          | nil =>
            exfalso
            have hnil : join [' '] (b :: ws) = [] := by simpa using hj
            have := words_join hb
            rw [hnil] at this
            simp [words, splitBy] at this
          | cons c' r' =>
            rw [hj] at hr
            simp at hr
            rw [← hr.1]
            exact ih b hb c' r' hj
      exact fun r c hr => key ws w h c r.reverse (by rw [hr]; simp)

theorem dim_word : IsWord "dim".toList := by
  refine ⟨by decide, ?_⟩
  decide

/-- Reading the size back. -/
theorem dim_line (a b c : Int) : strip (dimLine a b c) = dimLine a b c ∧ (splitOn ' ' (dimLine a b c)).tail.mapM parseInt = some [a, b, c] ∧
    startsWith "dim ".toList (dimLine a b c) = true := by
  have e : dimLine a b c = join [' '] ["dim".toList, fmtInt a, fmtInt b, fmtInt c] := by
    rw [join_cons_cons]
    rfl
  have hw : ∀ w ∈ ["dim".toList, fmtInt a, fmtInt b, fmtInt c], IsWord w := by
    intro w hw
    simp only [List.mem_cons, List.not_mem_nil, or_false] at hw
    rcases hw with rfl | rfl | rfl | rfl
    · exact dim_word
    all_goals exact (num_word (fmtInt_num _)).1
  refine ⟨by rw [e]; exact strip_words hw, ?_, ?_⟩
  · rw [e, split_space (by simp) hw]
    simp [parseInt_fmtInt]
  · rw [dimLine]
    simp [startsWith]

theorem floats_line (name : Str) (hn : IsWord name) (k : Nat) (xs : List ℚ) (hx : xs ≠ []) :
    strip (floatsLine (name ++ [' ']) k xs) = floatsLine (name ++ [' ']) k xs ∧
    splitOn ' ' (floatsLine (name ++ [' ']) k xs) = name :: xs.map (fmtFloat k) ∧ startsWith (name ++ [' ']) (floatsLine (name ++ [' ']) k xs) = true := by
  have e : floatsLine (name ++ [' ']) k xs = join [' '] (name :: xs.map (fmtFloat k)) := by
    cases xs with
    | nil => exact absurd rfl hx
    | cons x xs =>
      rw [List.map_cons, join_cons_cons]
      rfl
  have hw : ∀ w ∈ name :: xs.map (fmtFloat k), IsWord w := by
    intro w hw
    rcases List.mem_cons.mp hw with rfl | hw
    · exact hn
    · obtain ⟨x, -, rfl⟩ := List.mem_map.mp hw
      exact (num_word (fmtFloat_num _ _)).1
  refine ⟨by rw [e]; exact strip_words hw, by rw [e, split_space (by simp) hw], ?_⟩
  simp only [startsWith, floatsLine, List.isPrefixOf_iff_prefix]
  exact List.prefix_append _ _

theorem mapM_floats (k : Nat) (xs : List ℚ) : (xs.map (fmtFloat k)).mapM parseFloat = some (xs.map (decRound k)) := by
  induction xs with
  | nil => rfl
  | cons x xs ih => simp [parseFloat_fmtFloat, ih]

/-- A written header is read back; cubes only. -/
theorem header_spec (a b c : Int) (k : Nat) (t1 t2 t3 sc : ℚ) :
    header "#binvox 1\n".toList (dimLine a b c) (floatsLine ("translate".toList ++ [' ']) k [t1, t2, t3]) (floatsLine ("scale".toList ++ [' ']) k [sc]) "data\n".toList =
      if a = b ∧ a = c then .ok (a, [decRound k t1, decRound k t2, decRound k t3], decRound k sc) else .error .value := by
  obtain ⟨d1, d2, d3⟩ := dim_line a b c
  have wt : IsWord "translate".toList := ⟨by decide, by decide⟩
  have ws : IsWord "scale".toList := ⟨by decide, by decide⟩
  obtain ⟨f1, f2, f3⟩ := floats_line "translate".toList wt k [t1, t2, t3] (by simp)
  obtain ⟨g1, g2, g3⟩ := floats_line "scale".toList ws k [sc] (by simp)
  have st : "translate ".toList = "translate".toList ++ [' '] := by decide
  have ss : "scale ".toList = "scale".toList ++ [' '] := by decide
  have h1 : strip "#binvox 1\n".toList = "#binvox 1".toList := by decide
  have h5 : strip "data\n".toList = "data".toList := by decide
  unfold header
  rw [if_neg (not_not.mpr h1), d1, if_neg (by rw [d3]; decide), d2]
  dsimp only
  by_cases hab : a = b ∧ a = c
  · rw [if_pos hab, if_neg (by push Not; exact hab), f1, st, f3, if_neg (by decide), f2, if_neg (by simp), List.tail_cons, mapM_floats]
    dsimp only
    rw [g1, ss, g3, if_neg (by decide), g2]
    simp only [List.map_cons, List.map_nil, parseFloat_fmtFloat]
    rw [if_neg (not_not.mpr h5)]
  · rw [if_neg hab, if_pos (by
      by_contra hcon
      push Not at hcon
      exact hab hcon)]

/-- Reading a file: exactly the occupied voxels of the dense grid, ordered by their index. -/
theorem readCoords_spec (size : Nat) (_hs : 0 < size) (k : Nat) (t1 t2 t3 sc : ℚ) (runs : List (Nat × Nat)) (h : ∀ r ∈ runs, r.1 = 1 → 0 < r.2)
    (hne : ∃ r ∈ runs, r.1 = 1) :
    readCoords "#binvox 1\n".toList (dimLine size size size) (floatsLine ("translate".toList ++ [' ']) k [t1, t2, t3])
      (floatsLine ("scale".toList ++ [' ']) k [sc]) "data\n".toList (runs.flatMap fun r => [r.1, r.2]) = .ok ((onesOf (dense runs)).map (coords size)) := by
  unfold readCoords
  rw [header_spec, if_pos ⟨rfl, rfl⟩]
  dsimp only
  rw [pairs_spec]
  dsimp only
  rw [computeIdxs_spec runs h hne]

theorem mem_onesOf (g : List Nat) (i : Int) : i ∈ onesOf g ↔ 0 ≤ i ∧ g[i.toNat]? = some 1 := by
  simp only [onesOf, List.mem_map, List.mem_filter, List.mem_range, beq_iff_eq]
  constructor
  · rintro ⟨n, ⟨-, hn⟩, rfl⟩
    exact ⟨by omega, by simpa using hn⟩
  · rintro ⟨h0, h1⟩
    refine ⟨i.toNat, ⟨?_, h1⟩, by omega⟩
    by_contra hcon
    rw [List.getElem?_eq_none (by omega)] at h1
    simp at h1

/-- Voxel (x, y, z) is returned if and only if the grid is one at x, z, y (x slowest). -/
theorem voxel_iff (size : Int) (hs : 0 < size) (runs : List (Nat × Nat)) (x y z : Int) :
    (x, y, z) ∈ (onesOf (dense runs)).map (coords size) ↔
      0 ≤ y ∧ y < size ∧ 0 ≤ z ∧ z < size ∧ 0 ≤ x ∧ (dense runs)[((x * size + z) * size + y).toNat]? = some 1 := by
  simp only [List.mem_map, mem_onesOf]
  constructor
  · rintro ⟨i, ⟨h0, h1⟩, hc⟩
    obtain ⟨rfl, hy0, hy1, hz0, hz1⟩ := (coords_spec size i x y z hs).mp hc
    refine ⟨hy0, hy1, hz0, hz1, ?_, h1⟩
    by_contra hx
    have : x * size + z < 0 := by nlinarith
    have : (x * size + z) * size + y < 0 := by nlinarith
    omega
  · rintro ⟨hy0, hy1, hz0, hz1, hx, h1⟩
    exact ⟨_, ⟨by positivity, h1⟩, (coords_spec size _ x y z hs).mpr ⟨rfl, hy0, hy1, hz0, hz1⟩⟩

/-- x is not checked: it stays below the size if and only if the grid has no ones beyond size³. -/
theorem x_in_range (size : Int) (hs : 0 < size) (i : Int) : (coords size i).1 < size ↔ i < size * size * size := by
  unfold coords
  rw [Int.ediv_lt_iff_lt_mul (by positivity)]
  constructor <;> intro h <;> nlinarith

/-! ### Bounding boxes -/

section Bbox

variable {K : Type} [Field K] [LinearOrder K] [IsStrictOrderedRing K]

/-- Smallest and largest entry of a column. -/
def lmin : List K → K
  | [] => 0
  | [a] => a
  | a :: l => min a (lmin l)

def lmax : List K → K
  | [] => 0
  | [a] => a
  | a :: l => max a (lmax l)

/-- `align_bbox` (utils.py:323-350) for one column; `none` if the source is flat (0/0 or infinite). -/
def alignBbox (src tgt : List K) : Option (List K) :=
  if lmax src - lmin src = 0 then none
  else
    let s := (lmax tgt - lmin tgt) / (lmax src - lmin src)
    some (src.map fun x => s * x + (lmin tgt - s * lmin src))

theorem lmin_spec (l : List K) (h : l ≠ []) : lmin l ∈ l ∧ ∀ x ∈ l, lmin l ≤ x := by
  induction l with
  | nil => exact absurd rfl h
  | cons a l ih =>
    cases l with
    | nil => simp [lmin]
    | cons b l =>
      obtain ⟨h1, h2⟩ := ih (by simp)
      rw [lmin]
      · refine ⟨?_, ?_⟩
        · rcases min_choice a (lmin (b :: l)) with h | h <;> rw [h]
          · exact List.mem_cons_self
          · exact List.mem_cons_of_mem _ h1
        · intro x hx
          rcases List.mem_cons.mp hx with rfl | hx
          · exact min_le_left _ _
          · exact le_trans (min_le_right _ _) (h2 x hx)
      · simp

theorem lmax_spec (l : List K) (h : l ≠ []) : lmax l ∈ l ∧ ∀ x ∈ l, x ≤ lmax l := by
  induction l with
  | nil => exact absurd rfl h
  | cons a l ih =>
    cases l with
    | nil => simp [lmax]
    | cons b l =>
      obtain ⟨h1, h2⟩ := ih (by simp)
      rw [lmax]
      · refine ⟨?_, ?_⟩
        · rcases max_choice a (lmax (b :: l)) with h | h <;> rw [h]
          · exact List.mem_cons_self
          · exact List.mem_cons_of_mem _ h1
        · intro x hx
          rcases List.mem_cons.mp hx with rfl | hx
          · exact le_max_left _ _
          · exact le_trans (h2 x hx) (le_max_right _ _)
      · simp

/-- The result has the bounds of the target (which both are reached), and every point keeps its relative place between the bounds. -/
theorem align_spec (src tgt : List K) (hs : src ≠ []) (ht : tgt ≠ []) (hflat : lmin src < lmax src) :
    ∃ out, alignBbox src tgt = some out ∧ out.length = src.length ∧ lmin tgt ∈ out ∧ lmax tgt ∈ out ∧ (∀ y ∈ out, lmin tgt ≤ y ∧ y ≤ lmax tgt) ∧
      ∀ (i : Nat) (x y : K), src[i]? = some x → out[i]? = some y → (y - lmin tgt) * (lmax src - lmin src) = (x - lmin src) * (lmax tgt - lmin tgt) := by
  obtain ⟨a1, a2⟩ := lmin_spec src hs
  obtain ⟨b1, b2⟩ := lmax_spec src hs
  obtain ⟨c1, c2⟩ := lmin_spec tgt ht
  have hne : lmax src - lmin src ≠ 0 := (sub_pos.mpr hflat).ne'
  have hpos : 0 < lmax src - lmin src := sub_pos.mpr hflat
  have htgt : 0 ≤ lmax tgt - lmin tgt := sub_nonneg.mpr ((lmax_spec tgt ht).2 _ c1)
  generalize hm : lmin src = m at *
  generalize hM : lmax src = M at *
  generalize hn : lmin tgt = n at *
  generalize hN : lmax tgt = N at *
  have hsc : 0 ≤ (N - n) / (M - m) := div_nonneg htgt hpos.le
  have hid : (N - n) / (M - m) * (M - m) = N - n := div_mul_cancel₀ _ hne
  refine ⟨src.map fun x => (N - n) / (M - m) * x + (n - (N - n) / (M - m) * m), ?_, by simp, ?_, ?_, ?_, ?_⟩
  · unfold alignBbox
    rw [hm, hM, if_neg hne, hn, hN]
  · exact List.mem_map.mpr ⟨m, a1, by ring⟩
  · exact List.mem_map.mpr ⟨M, b1, by linear_combination hid⟩
  · intro y hy
    obtain ⟨x, hx, rfl⟩ := List.mem_map.mp hy
    have h1 := mul_nonneg hsc (sub_nonneg.mpr (a2 x hx))
    have h2 := mul_nonneg hsc (sub_nonneg.mpr (b2 x hx))
    constructor
    · linarith
    · nlinarith
  · intro i x y hx hy
    rw [List.getElem?_map, hx] at hy
    simp only [Option.map_some, Option.some.injEq] at hy
    rw [← hy]
    linear_combination (x - m) * hid

/-- A source that is flat in some direction gives no finite result. -/
theorem align_flat (src tgt : List K) (h : lmin src = lmax src) : alignBbox src tgt = none := by
  unfold alignBbox
  rw [if_pos (by rw [h, sub_self])]

end Bbox

/-! ### Examples -/

/-- The example of the comments. -/
example : computeIdxs [(0, 2), (1, 3), (0, 3), (1, 2), (1, 1)] = .ok [2, 3, 4, 8, 9, 10] := by decide +kernel

example : dense [(0, 2), (1, 3), (0, 3), (1, 2), (1, 1)] = [0, 0, 1, 1, 1, 0, 0, 0, 1, 1, 1] := by decide

/-- An empty run of ones can break the result: the correction of the next run is lost. -/
theorem empty_run : ∃ runs, computeIdxs runs = .ok [0, 1, 5, 6] ∧ onesOf (dense runs) = [0, 1, 8, 9] :=
  ⟨[(1, 2), (0, 3), (1, 0), (0, 3), (1, 2)], by decide +kernel, by decide +kernel⟩

/-- ... or be an IndexError at the end. -/
example : computeIdxs [(1, 2), (1, 0)] = .error .index := by decide +kernel

example : (List.range 8).map (fun i => coords 2 i) = [(0, 0, 0), (0, 1, 0), (0, 0, 1), (0, 1, 1), (1, 0, 0), (1, 1, 0), (1, 0, 1), (1, 1, 1)] := by decide +kernel

example : alignBbox [(0 : ℚ), 31, 10] [-1, 0, 1] = some [-1, 1, -11 / 31] := by decide +kernel

end P3D.Binvox
