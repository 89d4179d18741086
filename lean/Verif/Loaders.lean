/-
Data loaders of implicitron (`implicitron/dataset/data_loader_map_provider.py`): `DoublePoolBatchSampler`, the simple loader and the choice of a loader by
`SequenceDataLoaderMapProvider` and `SimpleDataLoaderMapProvider`.

`torch.randint` and `torch.randperm` are arbitrary numbers in range and arbitrary permutations.  Not modelled: workers, collation, `SceneBatchSampler` (see SceneSampler),
a batch size below one.
-/
import Mathlib.Data.List.Perm.Basic
import Mathlib.Data.List.Nodup
import Mathlib.Tactic.Linarith
import Mathlib.Tactic.Ring

set_option linter.unusedSectionVars false

namespace P3D.Loaders

inductive Err | value | assert
deriving DecidableEq, Repr

/-! ### The code -/

/-- `DoublePoolBatchSampler` (lines 152-191). -/
structure Pool where
  first : List Nat
  rest : List Nat
  batch : Nat
  repl : Bool
  num : Option Nat

/-- Its constructor. -/
def Pool.mk? (first rest : List Nat) (batch : Nat) (repl : Bool) (num : Option Nat) : Except Err Pool :=
  if rest.length < batch - 1 then .error .value else .ok ⟨first, rest, batch, repl, if num = some 0 then none else num⟩

/-- `__len__` (lines 193-196). -/
def Pool.len (p : Pool) : Nat := p.num.getD p.first.length

/-- The random numbers of one epoch: numbers, permutations for the first elements, and one permutation for each batch. -/
structure Draws where
  ints : List Nat
  perms : List (List Nat)
  rests : List (List Nat)

/-- The number of permutations drawn for the first elements (lines 206-214). -/
def Pool.copies (p : Pool) : Nat :=
  match p.num with
  | some nb => 1 + (nb - 1) / p.first.length
  | none => 1

/-- What torch returns. -/
structure Draws.Ok (p : Pool) (d : Draws) : Prop where
  ints_len : d.ints.length = p.len
  ints_lt : ∀ i ∈ d.ints, i < p.first.length
  perms_len : d.perms.length = p.copies
  perms_perm : ∀ q ∈ d.perms, q.Perm (List.range p.first.length)
  rests_len : p.len ≤ d.rests.length
  rests_perm : ∀ q ∈ d.rests, q.Perm (List.range p.rest.length)

def Pool.iFirst (p : Pool) (d : Draws) : List Nat :=
  if p.repl then d.ints
  else match p.num with
    | some nb => d.perms.flatten.take nb
    | none => d.perms.flatten

/-- `__iter__` (lines 198-230). -/
def Pool.iter (p : Pool) (d : Draws) : List (List Nat) :=
  let fs := (p.iFirst d).map fun i => p.first.getD i 0
  if p.batch = 1 then fs.map fun f => [f]
  else List.zipWith (fun f q => f :: (q.take (p.batch - 1)).map fun i => p.rest.getD i 0) fs d.rests

/-- `BatchSampler(sampler, batch_size, drop_last=True)` on the sampled indices. -/
def batches (b : Nat) (l : List Nat) : List (List Nat) := (List.range (l.length / b)).map fun i => (l.drop (i * b)).take b

inductive Cond | same | train | known
deriving DecidableEq, Repr

inductive Plan
  | none
  | eval
  | simple
  | scenes
  | pool (p : Pool)

/-- `_known_loader` (lines 493-526): unseen frames first, known ones for conditioning. -/
def knownPool (known : List Bool) (b nb : Nat) : Except Err Pool :=
  Pool.mk? ((List.range known.length).filter fun i => !known.getD i false) ((List.range known.length).filter fun i => known.getD i false) b true (some nb)

/-- `_train_loader` (lines 459-491): indices into the concatenation of the dataset and the training dataset. -/
def trainPool (len : Nat) (trainLen : Option Nat) (b nb : Nat) : Except Err Pool :=
  match trainLen with
  | .none => .error .value
  | some t => Pool.mk? (List.range len) ((List.range t).map (len + ·)) b true (some nb)

/-- `_make_data_loader` (lines 356-423): `ds` is the list of "is known" of the frames of the dataset, if there is one. -/
def make (ds : Option (List Bool)) (evalBatches : Bool) (trainLen : Option Nat) (seqOptions : List Nat) (b nb : Nat) (c : Cond) : Except Err Plan :=
  match ds with
  | .none => .ok .none
  | some known =>
    if evalBatches then .ok .eval
    else if seqOptions ≠ [] ∧ c ≠ .same then .error .value
    else if b = 1 ∨ (seqOptions = [] ∧ c = .same) then .ok .simple
    else if seqOptions ≠ [] then .ok .scenes
    else if c = .train then (trainPool known.length trainLen b nb).map .pool
    else (knownPool known b nb).map .pool

/-! ### Theorems -/

theorem mk_spec (first rest : List Nat) (batch : Nat) (repl : Bool) (num : Option Nat) :
    (Pool.mk? first rest batch repl num = .error .value ↔ rest.length + 1 < batch) ∧
    ∀ p, Pool.mk? first rest batch repl num = .ok p → p.first = first ∧ p.rest = rest ∧ p.batch = batch ∧ p.repl = repl ∧ p.batch ≤ p.rest.length + 1 ∧
      p.len = (if num = some 0 then first.length else num.getD first.length) := by
  unfold Pool.mk?
  by_cases h : rest.length < batch - 1
  · rw [if_pos h]
    refine ⟨⟨fun _ => (by omega), fun _ => rfl⟩, fun p hp => (by cases hp)⟩
  · rw [if_neg h]
    refine ⟨⟨fun hp => (by cases hp), fun hp => (by omega)⟩, fun p hp => ?_⟩
    have hp := Except.ok.inj hp
    subst hp
    refine ⟨rfl, rfl, rfl, rfl, by dsimp only; omega, ?_⟩
    unfold Pool.len
    dsimp only
    split_ifs <;> rfl

theorem flatten_length (n : Nat) (ps : List (List Nat)) (h : ∀ q ∈ ps, q.Perm (List.range n)) : ps.flatten.length = ps.length * n := by
  induction ps with
  | nil => simp
  | cons q ps ih =>
    rw [List.flatten_cons, List.length_append, ih fun q hq => h q (List.mem_cons_of_mem _ hq), (h q List.mem_cons_self).length_eq, List.length_range, List.length_cons]
    ring

theorem iFirst_len (p : Pool) (d : Draws) (hd : d.Ok p) (hf : 0 < p.first.length) : (p.iFirst d).length = p.len ∧ ∀ i ∈ p.iFirst d, i < p.first.length := by
  have hm : ∀ i ∈ d.perms.flatten, i < p.first.length := by
    intro i hi
    obtain ⟨q, hq, hiq⟩ := List.mem_flatten.mp hi
    exact List.mem_range.mp ((hd.perms_perm q hq).mem_iff.mp hiq)
  have hl := flatten_length _ _ hd.perms_perm
  rw [hd.perms_len] at hl
  unfold Pool.iFirst
  by_cases hr : p.repl = true
  · rw [if_pos hr]
    exact ⟨hd.ints_len, hd.ints_lt⟩
  · rw [if_neg hr]
    cases hn : p.num with
    | none =>
      dsimp only
      refine ⟨?_, hm⟩
      rw [hl]
      simp [Pool.copies, Pool.len, hn]
    | some nb =>
      dsimp only
      refine ⟨?_, fun i hi => hm i (List.mem_of_mem_take hi)⟩
      rw [List.length_take, hl]
      simp only [Pool.copies, Pool.len, hn, Option.getD_some]
      have := Nat.div_add_mod (nb - 1) p.first.length
      have hmod := Nat.mod_lt (nb - 1) hf
      have e : (1 + (nb - 1) / p.first.length) * p.first.length = p.first.length + p.first.length * ((nb - 1) / p.first.length) := by ring
      rw [e]
      omega

/-- An epoch has the announced number of batches; each has one of the first indices and then `batch - 1` of the others at different positions. -/
theorem iter_spec (p : Pool) (d : Draws) (hd : d.Ok p) (hf : 0 < p.first.length) (hb : 1 ≤ p.batch) (hr : p.batch ≤ p.rest.length + 1) :
    (p.iter d).length = p.len ∧ ∀ x ∈ p.iter d, ∃ (f : Nat) (js : List Nat), x = f :: (js.map fun i => p.rest.getD i 0) ∧ f ∈ p.first ∧ js.Nodup ∧ (∀ j ∈ js, j < p.rest.length) ∧
      js.length = p.batch - 1 := by
  obtain ⟨h1, h2⟩ := iFirst_len p d hd hf
  unfold Pool.iter
  dsimp only
  have hmem : ∀ i ∈ p.iFirst d, p.first.getD i 0 ∈ p.first := by
    intro i hi
    have := h2 i hi
    rw [List.getD_eq_getElem?_getD, List.getElem?_eq_getElem this]
    exact List.getElem_mem this
  by_cases hb1 : p.batch = 1
  · rw [if_pos hb1]
    refine ⟨by simp [h1], ?_⟩
    intro x hx
    obtain ⟨f, hf', rfl⟩ := List.mem_map.mp hx
    obtain ⟨i, hi, rfl⟩ := List.mem_map.mp hf'
    exact ⟨_, [], rfl, hmem i hi, List.nodup_nil, by simp, by simp [hb1]⟩
  · rw [if_neg hb1]
    have hrl := hd.rests_len
    refine ⟨by rw [List.length_zipWith, List.length_map, h1]; omega, ?_⟩
    intro x hx
    rw [List.mem_iff_getElem] at hx
    obtain ⟨k, hk, rfl⟩ := hx
    rw [List.length_zipWith, List.length_map] at hk
    rw [List.getElem_zipWith, List.getElem_map]
    have hq := hd.rests_perm _ (List.getElem_mem (l := d.rests) (n := k) (by omega))
    refine ⟨_, (d.rests[k]'(by omega)).take (p.batch - 1), rfl, hmem _ (List.getElem_mem _), ?_, ?_, ?_⟩
    · exact (hq.nodup_iff.mpr List.nodup_range).sublist (List.take_sublist _ _)
    · intro j hj
      exact List.mem_range.mp (hq.mem_iff.mp (List.mem_of_mem_take hj))
    · rw [List.length_take, hq.length_eq, List.length_range]
      omega

theorem take_count (n : Nat) (ps : List (List Nat)) (h : ∀ q ∈ ps, q.Perm (List.range n)) (nb : Nat) (hl : nb ≤ ps.length * n) (i : Nat) (hi : i < n) :
    nb / n ≤ (ps.flatten.take nb).count i ∧ (ps.flatten.take nb).count i ≤ (nb + n - 1) / n := by
  induction ps generalizing nb with
  | nil =>
    have : nb = 0 := by simpa using hl
    subst this
    simp
  | cons q ps ih =>
    have hq := h q List.mem_cons_self
    have hql : q.length = n := by rw [hq.length_eq, List.length_range]
    have hc : q.count i = 1 := by
      rw [hq.count_eq]
      exact List.count_eq_one_of_mem List.nodup_range (List.mem_range.mpr hi)
    rw [List.flatten_cons, List.take_append, List.count_append]
    rw [List.length_cons, Nat.succ_mul] at hl
    rcases Nat.lt_or_ge nb n with hlt | hge
    · rw [show nb - q.length = 0 by omega]
      have e : nb / n = 0 := Nat.div_eq_of_lt hlt
      simp only [List.take_zero, List.count_nil, Nat.add_zero]
      rw [e]
      refine ⟨Nat.zero_le _, ?_⟩
      rcases Nat.eq_zero_or_pos nb with rfl | hp
      · simp
      · have h1 : (q.take nb).count i ≤ q.count i := (List.take_sublist nb q).count_le i
        have h2 : 1 ≤ (nb + n - 1) / n := by
          rw [Nat.le_div_iff_mul_le (by omega)]
          omega
        omega
    · rw [List.take_of_length_le (by omega), hc, hql]
      obtain ⟨h1, h2⟩ := ih (fun q hq => h q (List.mem_cons_of_mem _ hq)) (nb - n) (by omega)
      have e1 : nb / n = (nb - n) / n + 1 := by
        rw [Nat.div_eq_sub_div (by omega) hge]
      have e2 : (nb + n - 1) / n = (nb - n + n - 1) / n + 1 := by
        rw [Nat.div_eq_sub_div (by omega) (by omega)]
        congr 2
        omega
      omega

/-- Without replacement every first index is used equally often, up to one. -/
theorem first_balanced (p : Pool) (d : Draws) (hd : d.Ok p) (hr : p.repl = false) (i : Nat) (hi : i < p.first.length) :
    p.len / p.first.length ≤ (p.iFirst d).count i ∧ (p.iFirst d).count i ≤ (p.len + p.first.length - 1) / p.first.length := by
  have hl := iFirst_len p d hd (by omega)
  have hfl := flatten_length _ _ hd.perms_perm
  have key := take_count _ _ hd.perms_perm p.len
  unfold Pool.iFirst at *
  rw [hr] at *
  simp only [Bool.false_eq_true, if_false] at *
  cases hn : p.num with
  | none =>
    rw [hn] at hl
    dsimp only at hl ⊢
    have := key (by omega) i hi
    rwa [List.take_of_length_le (by omega)] at this
  | some nb =>
    rw [hn] at hl
    dsimp only at hl ⊢
    have hlen : p.len = nb := by simp [Pool.len, hn]
    rw [hlen] at key hl ⊢
    rw [List.length_take] at hl
    exact key (by omega) i hi

/-- Batches of a permutation: full batches only, no index twice, the remainder is left out. -/
theorem batches_spec (b : Nat) (hb : 0 < b) (l : List Nat) : (batches b l).length = l.length / b ∧ (∀ x ∈ batches b l, x.length = b) ∧ (batches b l).flatten = l.take (l.length / b * b) := by
  have key : ∀ m, m * b ≤ l.length → ((List.range m).map fun i => (l.drop (i * b)).take b).flatten = l.take (m * b) := by
    intro m
    induction m with
    | zero => simp
    | succ m ih =>
      intro hm
      rw [Nat.succ_mul] at hm ⊢
      rw [List.range_succ, List.map_append, List.flatten_append, ih (by omega), List.take_add]
      simp
  have hm : l.length / b * b ≤ l.length := Nat.div_mul_le_self _ _
  refine ⟨by simp [batches], ?_, key _ hm⟩
  intro x hx
  obtain ⟨i, hi, rfl⟩ := List.mem_map.mp hx
  rw [List.mem_range] at hi
  rw [List.length_take, List.length_drop]
  have : (i + 1) * b ≤ l.length / b * b := Nat.mul_le_mul_right _ hi
  rw [Nat.succ_mul] at this
  omega

/-- So a dataset smaller than the batch gives no batch at all. -/
theorem batches_none (b : Nat) (l : List Nat) (h : l.length < b) : batches b l = [] := by
  simp [batches, Nat.div_eq_of_lt h]

/-- Which frames can be in a batch with conditioning on known frames: the first is unseen, the others known. -/
theorem known_frames (known : List Bool) (b nb : Nat) (p : Pool) (h : knownPool known b nb = .ok p) :
    (∀ i, i ∈ p.first ↔ known[i]? = some false) ∧ (∀ i, i ∈ p.rest ↔ known[i]? = some true) ∧ p.repl = true := by
  obtain ⟨h1, h2, -, h4, -⟩ := (mk_spec _ _ _ _ _).2 p h
  rw [h1, h2]
  refine ⟨fun i => ?_, fun i => ?_, h4⟩
  · rw [List.mem_filter, List.mem_range, List.getD_eq_getElem?_getD]
    by_cases hi : i < known.length
    · rw [List.getElem?_eq_getElem hi]
      cases known[i] <;> simp [hi]
    · rw [List.getElem?_eq_none (by omega)]
      simp [hi]
  · rw [List.mem_filter, List.mem_range, List.getD_eq_getElem?_getD]
    by_cases hi : i < known.length
    · rw [List.getElem?_eq_getElem hi]
      cases known[i] <;> simp [hi]
    · rw [List.getElem?_eq_none (by omega)]
      simp

/-- The element of the concatenated dataset at an index. -/
def concatAt {α : Type} (ds train : List α) (i : Nat) : Option α := if i < ds.length then ds[i]? else train[i - ds.length]?

/-- Conditioning on training frames: the first frame is of the dataset, the others of the training set. -/
theorem train_frames {α : Type} (ds train : List α) (b nb : Nat) (p : Pool) (h : trainPool ds.length (some train.length) b nb = .ok p) :
    (∀ i ∈ p.first, ∃ k < ds.length, concatAt ds train i = ds[k]?) ∧ ∀ i ∈ p.rest, ∃ k < train.length, concatAt ds train i = train[k]? := by
  obtain ⟨h1, h2, -⟩ := (mk_spec _ _ _ _ _).2 p h
  rw [h1, h2]
  constructor
  · intro i hi
    rw [List.mem_range] at hi
    exact ⟨i, hi, by rw [concatAt, if_pos hi]⟩
  · intro i hi
    obtain ⟨k, hk, rfl⟩ := List.mem_map.mp hi
    rw [List.mem_range] at hk
    refine ⟨k, hk, ?_⟩
    rw [concatAt, if_neg (by omega), Nat.add_sub_cancel_left]

/-- If the dataset is the training set itself, a frame can be among its own conditioning frames. -/
theorem train_itself {α : Type} (ds : List α) (nb : Nat) (hl : 0 < ds.length) (hn : 0 < nb) : ∃ p d, trainPool ds.length (some ds.length) 2 nb = .ok p ∧ d.Ok p ∧
    ∃ x ∈ p.iter d, x.map (concatAt ds ds) = [ds[0]?, ds[0]?] := by
  have hp : trainPool ds.length (some ds.length) 2 nb = .ok ⟨List.range ds.length, (List.range ds.length).map (ds.length + ·), 2, true, some nb⟩ := by
    simp only [trainPool, Pool.mk?, List.length_map, List.length_range]
    rw [if_neg (by omega), if_neg (by simp; omega)]
  refine ⟨_, ⟨List.replicate nb 0, List.replicate (1 + (nb - 1) / ds.length) (List.range ds.length), List.replicate nb (List.range ds.length)⟩, hp, ?_, ?_⟩
  · refine ⟨by simp [Pool.len], ?_, by simp [Pool.copies], ?_, by simp [Pool.len], ?_⟩
    · intro i hi
      rw [List.eq_of_mem_replicate hi]
      simpa using hl
    · intro q hq
      rw [List.eq_of_mem_replicate hq]
      simp
    · intro q hq
      rw [List.eq_of_mem_replicate hq]
      simp
  · obtain ⟨m, rfl⟩ : ∃ m, nb = m + 1 := ⟨nb - 1, by omega⟩
    obtain ⟨L, hL⟩ : ∃ L, ds.length = L + 1 := ⟨ds.length - 1, by omega⟩
    refine ⟨[0, ds.length], ?_, ?_⟩
    · rw [hL]
      simp [Pool.iter, Pool.iFirst, List.replicate_succ, List.range_succ_eq_map]
    · simp [concatAt, hl]

/-- The choice of the loader. A batch size of one always uses the simple loader, which takes known frames too. -/
theorem make_spec (known : List Bool) (tl : Option Nat) (so : List Nat) (b nb : Nat) (c : Cond) :
    make none false tl so b nb c = .ok .none ∧ make (some known) true tl so b nb c = .ok .eval ∧
    (so ≠ [] → c ≠ .same → make (some known) false tl so b nb c = .error .value) ∧
    (so = [] → make (some known) false tl so 1 nb c = .ok .simple) ∧
    (so = [] → make (some known) false tl so b nb .same = .ok .simple) ∧
    (so ≠ [] → b ≠ 1 → make (some known) false tl so b nb .same = .ok .scenes) ∧
    (so = [] → b ≠ 1 → make (some known) false tl so b nb .train = (trainPool known.length tl b nb).map .pool) ∧
    (so = [] → b ≠ 1 → make (some known) false tl so b nb .known = (knownPool known b nb).map .pool) := by
  refine ⟨rfl, rfl, ?_, ?_, ?_, ?_, ?_, ?_⟩
  · intro h1 h2
    simp [make, h1, h2]
  · intro h
    simp [make, h]
  · intro h
    simp [make, h]
  · intro h1 h2
    simp [make, h1, h2]
  · intro h1 h2
    simp [make, h1, h2]
  · intro h1 h2
    simp [make, h1, h2]

/-! ### Examples -/

def exPool : Pool := ⟨[5, 7], [1, 2, 3], 3, false, some 3⟩

/-- Three batches from two first frames. -/
example : exPool.iter ⟨[], [[1, 0], [0, 1]], [[2, 0, 1], [0, 1, 2], [1, 2, 0]]⟩ = [[7, 3, 1], [5, 1, 2], [5, 2, 3]] := by decide +kernel
example : (match Pool.mk? [5] [1] 3 true none with | .error e => some e | .ok _ => none) = some .value := by decide +kernel
example : batches 2 [4, 0, 3, 1, 2] = [[4, 0], [3, 1]] := by decide +kernel
example : (match knownPool [true, false, true] 2 0 with | .ok p => (p.first, p.rest, p.len) | .error _ => ([], [], 0)) = ([1], [0, 2], 1) := by decide +kernel

end P3D.Loaders
