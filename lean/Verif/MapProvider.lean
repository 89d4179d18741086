/-
Maps of train, validation and test datasets (`implicitron/dataset/dataset_map_provider.py`, `json_index_dataset_map_provider.py`, `json_index_dataset_map_provider_v2.py`).

Datasets are objects on a heap (`Nat → List α`, the frames of each object), since a map may hold one object three times and `join` changes objects in place.
An entry of a subset list is (sequence, frame).  Random permutations are any permutations.
Not modelled: files and paths, worker processes, evaluation batches of joined datasets (JsonIndex), the arguments passed on to datasets.
-/
import Mathlib.Data.List.Nodup
import Mathlib.Data.List.Range
import Mathlib.Data.List.Dedup
import Mathlib.Logic.Function.Basic

set_option linter.unusedSectionVars false

namespace P3D.MapProvider

inductive Err
  | value
  | index
  | key
  deriving DecidableEq, Repr

/-! ### The code: joining maps -/

section Join
variable {α : Type}

/-- A map: references to the datasets, or None. -/
structure DMap where
  train : Option Nat
  val : Option Nat
  test : Option Nat

/-- `d0.join(ds)` (json_index_dataset.py:210-244) on the frames. -/
def joinInto (h : Nat → List α) (d : Nat) (ds : List Nat) : Nat → List α := Function.update h d (h d ++ ds.flatMap h)

/-- One set of `DatasetMap.join` (dataset_map_provider.py:68-81). -/
def joinSet (h : Nat → List α) (a : Option Nat) (os : List (Option Nat)) : (Nat → List α) × Option Nat :=
  match (a :: os).filterMap id with
  | [] => (h, none)
  | [d] => (h, some d)
  | d :: ds => (joinInto h d ds, some d)

/-- `DatasetMap.join` (lines 53-81): train, val, test in this order; the input is iterated three times. -/
def joinMaps (h : Nat → List α) (m : DMap) (os : List DMap) : (Nat → List α) × DMap :=
  let r1 := joinSet h m.train (os.map DMap.train)
  let r2 := joinSet r1.1 m.val (os.map DMap.val)
  let r3 := joinSet r2.1 m.test (os.map DMap.test)
  (r3.1, ⟨r1.2, r2.2, r3.2⟩)

/-- The same for an iterator (the input is declared Iterable): it is empty after the first set. -/
def joinMapsIter (h : Nat → List α) (m : DMap) (os : List DMap) : (Nat → List α) × DMap :=
  let r1 := joinSet h m.train (os.map DMap.train)
  let r2 := joinSet r1.1 m.val []
  let r3 := joinSet r2.1 m.test []
  (r3.1, ⟨r1.2, r2.2, r3.2⟩)

/-! ### What a user relies on: joined sets -/

/-- One set joined: the frames of the first dataset there, followed by those of the others; nothing for absent ones. -/
theorem joinSet_spec (h : Nat → List α) (a : Option Nat) (os : List (Option Nat)) :
    (joinSet h a os).2 = ((a :: os).filterMap id).head?
      ∧ (∀ d, (joinSet h a os).2 = some d → (joinSet h a os).1 d = ((a :: os).filterMap id).flatMap h)
      ∧ ∀ d, (joinSet h a os).2 ≠ some d → (joinSet h a os).1 d = h d := by
  unfold joinSet
  generalize (a :: os).filterMap id = l
  match l with
  | [] => simp
  | [d] => simp
  | d :: e :: ds =>
    refine ⟨rfl, fun d' hd => ?_, fun d' hd => ?_⟩
    · cases Option.some.inj hd
      simp [joinInto]
    · have : d' ≠ d := fun e => hd (by rw [e])
      simp [joinInto, this]

theorem joinSet_some (h : Nat → List α) (d : Nat) (os : List (Option Nat)) :
    joinSet h (some d) os = (joinInto h d (os.filterMap id), some d) := by
  have : (some d :: os).filterMap id = d :: os.filterMap id := by simp
  unfold joinSet
  rw [this]
  cases os.filterMap id with
  | nil => simp [joinInto]
  | cons e es => rfl

/-- The frames of a set of the other maps. -/
def framesOf (h : Nat → List α) (os : List (Option Nat)) : List α := (os.filterMap id).flatMap h

/-- Three different datasets, which are not in the other maps: each gets the frames of the other maps' sets of its name, once. -/
theorem join_distinct (h : Nat → List α) (a b c : Nat) (hab : a ≠ b) (hac : a ≠ c) (hbc : b ≠ c) (os : List DMap)
    (hos : ∀ m ∈ os, ∀ d, (m.train = some d ∨ m.val = some d ∨ m.test = some d) → d ≠ a ∧ d ≠ b ∧ d ≠ c) :
    (joinMaps h ⟨some a, some b, some c⟩ os).1 a = h a ++ framesOf h (os.map DMap.train)
      ∧ (joinMaps h ⟨some a, some b, some c⟩ os).1 b = h b ++ framesOf h (os.map DMap.val)
      ∧ (joinMaps h ⟨some a, some b, some c⟩ os).1 c = h c ++ framesOf h (os.map DMap.test) := by
  have key : ∀ (g : Nat → List α) (f : DMap → Option Nat), (∀ m d, f m = some d → m.train = some d ∨ m.val = some d ∨ m.test = some d) →
      (∀ d, d ≠ a → d ≠ b → d ≠ c → g d = h d) → framesOf g (os.map f) = framesOf h (os.map f) := by
    intro g f hf hg
    unfold framesOf
    refine List.flatMap_congr fun d hd => ?_
    obtain ⟨x, hx, e⟩ := List.mem_filterMap.1 hd
    obtain ⟨m, hm, e2⟩ := List.mem_map.1 hx
    subst e2
    have := hos m hm d (hf m d (by simpa using e))
    exact hg d this.1 this.2.1 this.2.2
  have h1 := key h DMap.train (fun m d e => .inl e) (fun _ _ _ _ => rfl)
  have h2 := key (joinInto h a ((os.map DMap.train).filterMap id)) DMap.val (fun m d e => .inr (.inl e))
    (fun d da _ _ => by simp [joinInto, da])
  have h3 := key (joinInto (joinInto h a ((os.map DMap.train).filterMap id)) b ((os.map DMap.val).filterMap id)) DMap.test
    (fun m d e => .inr (.inr e)) (fun d da db _ => by simp [joinInto, da, db])
  simp only [joinMaps, joinSet_some]
  unfold framesOf at h2 h3
  refine ⟨?_, ?_, ?_⟩
  · simp [joinInto, hab, hac, framesOf]
  · rw [joinInto, Function.update_of_ne hbc, joinInto, Function.update_self, h2]
    simp [joinInto, hab.symm, framesOf]
  · rw [joinInto, Function.update_self, h3]
    simp [joinInto, hac.symm, hbc.symm, framesOf]

/-- `test_on_train`: all three names are one dataset, which therefore gets the frames of the other maps three times. -/
theorem join_shared (h : Nat → List α) (a : Nat) (ds : List Nat) (ha : a ∉ ds) :
    (joinMaps h ⟨some a, some a, some a⟩ (ds.map fun d => ⟨some d, some d, some d⟩)).1 a = h a ++ ds.flatMap h ++ ds.flatMap h ++ ds.flatMap h := by
  have hf : ∀ g : Nat → List α, (∀ d, d ≠ a → g d = h d) → ds.flatMap g = ds.flatMap h := by
    intro g hg
    refine List.flatMap_congr fun d hd => hg d fun e => ha (e ▸ hd)
  have hm : ∀ f : DMap → Option Nat, (∀ d, f ⟨some d, some d, some d⟩ = some d) →
      ((ds.map fun d => (⟨some d, some d, some d⟩ : DMap)).map f).filterMap id = ds := by
    intro f hf
    rw [List.map_map, List.filterMap_map]
    have : (id ∘ (f ∘ fun d => (⟨some d, some d, some d⟩ : DMap))) = some := by
      funext d
      simp [hf d]
    rw [this, List.filterMap_some]
  simp only [joinMaps, joinSet_some]
  rw [hm DMap.train fun _ => rfl, hm DMap.val fun _ => rfl, hm DMap.test fun _ => rfl]
  have e1 := hf (joinInto h a ds) (fun d hd => by simp [joinInto, hd])
  have e2 := hf (joinInto (joinInto h a ds) a ds) (fun d hd => by simp [joinInto, hd])
  rw [joinInto, Function.update_self, e2, joinInto, Function.update_self, e1, joinInto, Function.update_self]

example : (joinMaps (fun d => [10 * d]) ⟨some 1, some 1, some 1⟩ [⟨some 2, some 2, some 2⟩]).1 1 = [10, 20, 20, 20] := by decide

/-- Given an iterator only the training sets are joined. -/
theorem join_iter (h : Nat → List α) (a b c : Nat) (hab : a ≠ b) (hac : a ≠ c) (os : List DMap) :
    (joinMapsIter h ⟨some a, some b, some c⟩ os).1 a = h a ++ framesOf h (os.map DMap.train)
      ∧ (joinMapsIter h ⟨some a, some b, some c⟩ os).1 b = h b ∧ (joinMapsIter h ⟨some a, some b, some c⟩ os).1 c = h c := by
  simp only [joinMapsIter, joinSet_some]
  simp [joinInto, hab, hac, hab.symm, hac.symm, framesOf, Function.update_apply]
  exact ⟨fun e e' => absurd e.symm e', fun e => by rw [e]⟩

end Join

/-! ### The code: set names and sequences of version 1 -/

/-- The four subsets of CO3D: test/train × known/unseen. -/
structure SetName where
  train : Bool
  known : Bool
  deriving DecidableEq, Repr

/-- `_get_co3d_set_names_mapping` (json_index_dataset_map_provider.py:277-322); None for an absent key. -/
def setNames (single testOnTrain onlyTest : Bool) : Option (List SetName) × Option (List SetName) × Option (List SetName) :=
  let tr := if onlyTest then none else some [⟨!single, true⟩]
  let ev := if testOnTrain then none
    else some (([false] ++ if single then [] else [true]).flatMap fun p => [true, false].map fun t => ⟨p, t⟩)
  (tr, ev, ev)

/-- The check of the flags (lines 131-133). -/
def flagsOk (testOnTrain onlyTest : Bool) : Bool := !(onlyTest && testOnTrain)

section Names
variable {S : Type} [DecidableEq S]

/-- `list({b[0][0]: None for b in eval_batch_index}.keys())` (lines 194-196): sequences in the order of their first batch. -/
def firstSeen : List S → List S
  | [] => []
  | s :: l => s :: (firstSeen l).filter (· ≠ s)

/-- The sequence of a batch: `b[0][0]`. -/
def batchSeq (b : List (S × Nat)) : Option S := b.head?.map Prod.fst

/-- The restriction to one sequence, or to named ones (lines 177-208). -/
def restrict (single : Bool) (id : Int) (names : List S) (bs : List (List (S × Nat))) : Except Err (List (List (S × Nat)) × List S) :=
  if single then
    if id < 0 then .error .value
    else if names ≠ [] then .error .value
    else match bs.mapM batchSeq with
      | none => .error .index
      | some ss =>
        match (firstSeen ss)[id.toNat]? with
        | none => .error .index
        | some s => .ok (bs.filter fun b => batchSeq b = some s, [s])
  else if names = [] then .ok (bs, [])
  else match bs.mapM batchSeq with
    | none => .error .index
    | some _ => .ok (bs.filter fun b => (batchSeq b).any (· ∈ names), names)

/-- `assert_single_seq` (lines 250-260): the sequences of all datasets of the map. -/
def singleOk (sets : List (List S)) : Bool := (sets.flatten.dedup.length ≤ 1)

/-! ### The code: known views in test batches (version 2) -/

/-- `sequence_to_train_frames[s]` (v2 lines 427-431). -/
def trainOf (train : List (S × Nat)) (s : S) : List (S × Nat) := train.filter fun e => e.1 = s

/-- The entries added to a batch: the first n of a permutation of the sequence's training frames (lines 440-445). -/
def added (n : Nat) (train : List (S × Nat)) (perm : List Nat) (s : S) : List (S × Nat) := (perm.take n).filterMap fun i => (trainOf train s)[i]?

/-- One batch extended (lines 438-449); a sequence without training frames is a KeyError. -/
def extendOne (n : Nat) (train : List (S × Nat)) (perm : List Nat) (b : List (S × Nat)) : Except Err (List (S × Nat)) :=
  match batchSeq b with
  | none => .error .index
  | some s => if trainOf train s = [] then .error .key else .ok (b ++ added n train perm s)

/-- All batches extended; `perms` has the permutation drawn for each. -/
def extendAll (n : Nat) (train : List (S × Nat)) : List (List Nat) → List (List (S × Nat)) → Except Err (List (List (S × Nat)))
  | _, [] => .ok []
  | perms, b :: bs => (extendOne n train (perms.headD []) b).bind fun b' => (extendAll n train perms.tail bs).map (b' :: ·)

/-- The entries added over all batches, which are added to the test list (lines 450-453). -/
def testList (n : Nat) (train : List (S × Nat)) : List (List Nat) → List (List (S × Nat)) → List (S × Nat) → List (S × Nat)
  | _, [], test => test
  | perms, b :: bs, test => testList n train perms.tail bs (test ++ (batchSeq b).elim [] fun s => added n train (perms.headD []) s)

/-! ### What a user relies on -/

/-- Which sets exist: train unless only the test set is loaded, val and test (the same subsets) unless testing on train. -/
theorem setNames_keys (s t o : Bool) : ((setNames s t o).1.isSome = !o) ∧ ((setNames s t o).2.1.isSome = !t) ∧ (setNames s t o).2.2 = (setNames s t o).2.1 := by
  cases s <;> cases t <;> cases o <;> decide

/-- The single-sequence task stays in the test sequences, the other task trains on known frames of training sequences; all frames of validation include the training frames. -/
theorem setNames_spec (s : Bool) :
    (setNames s false false).1 = some [⟨!s, true⟩]
      ∧ ∃ ev, (setNames s false false).2.1 = some ev ∧ (∀ x, x ∈ ev ↔ (s = true → x.train = false)) ∧ ev.Nodup ∧ (⟨!s, true⟩ : SetName) ∈ ev := by
  cases s
  · refine ⟨rfl, _, rfl, fun x => ?_, by decide, by decide⟩
    rcases x with ⟨_ | _, _ | _⟩ <;> decide
  · refine ⟨rfl, _, rfl, fun x => ?_, by decide, by decide⟩
    rcases x with ⟨_ | _, _ | _⟩ <;> decide

theorem firstSeen_spec (l : List S) : (firstSeen l).Nodup ∧ ∀ s, s ∈ firstSeen l ↔ s ∈ l := by
  induction l with
  | nil => simp [firstSeen]
  | cons a l ih =>
    refine ⟨List.nodup_cons.2 ⟨by simp, ih.1.filter _⟩, fun s => ?_⟩
    rw [firstSeen, List.mem_cons, List.mem_filter, ih.2 s, List.mem_cons]
    by_cases h : s = a <;> simp [h]

theorem mapM_seqs : ∀ (bs : List (List (S × Nat))) {ss : List S}, bs.mapM batchSeq = some ss → ∀ s, s ∈ ss ↔ ∃ b ∈ bs, batchSeq b = some s
  | [], ss, h, s => by
    rw [List.mapM_nil] at h
    cases Option.some.inj h
    simp
  | b :: bs, ss, h, s => by
    rw [List.mapM_cons] at h
    cases hb : batchSeq b with
    | none => rw [hb] at h; cases h
    | some x =>
      rw [hb] at h
      cases hl : bs.mapM batchSeq with
      | none => rw [hl] at h; cases h
      | some xs =>
        rw [hl] at h
        have := Option.some.inj h
        subst this
        rw [List.mem_cons, mapM_seqs bs hl]
        simp [hb, eq_comm]

/-- The single-sequence task: exactly the batches of one sequence of the batches, at least one of them, and the datasets are restricted to it.  Different ids are different sequences. -/
theorem restrict_single (id : Int) (bs bs' : List (List (S × Nat))) (ns : List S) (h : restrict true id [] bs = .ok (bs', ns)) :
    0 ≤ id ∧ ∃ s, ns = [s] ∧ bs' ≠ [] ∧ (∀ b, b ∈ bs' ↔ b ∈ bs ∧ batchSeq b = some s)
      ∧ ∀ id' bs'' s', restrict true id' [] bs = .ok (bs'', [s']) → s' = s → id' = id := by
  have key : ∀ (i : Int) r, restrict true i [] bs = .ok r → 0 ≤ i ∧ ∃ ss, bs.mapM batchSeq = some ss ∧ ∃ s, (firstSeen ss)[i.toNat]? = some s
      ∧ r = (bs.filter fun b => batchSeq b = some s, [s]) := by
    intro i r hr
    unfold restrict at hr
    simp only [if_true, ne_eq, not_true_eq_false, if_false] at hr
    split_ifs at hr with h0
    refine ⟨by omega, ?_⟩
    cases hm : bs.mapM batchSeq with
    | none => rw [hm] at hr; cases hr
    | some ss =>
      rw [hm] at hr
      dsimp only at hr
      cases hs : (firstSeen ss)[i.toNat]? with
      | none => rw [hs] at hr; cases hr
      | some s =>
        rw [hs] at hr
        exact ⟨ss, rfl, s, hs, (Except.ok.inj hr).symm⟩
  obtain ⟨h0, ss, hm, s, hs, e⟩ := key id _ h
  simp only [Prod.mk.injEq] at e
  obtain ⟨rfl, rfl⟩ := e
  refine ⟨h0, s, rfl, ?_, fun b => by rw [List.mem_filter, decide_eq_true_eq], fun id' bs'' s' h' e' => ?_⟩
  · have : s ∈ ss := ((firstSeen_spec ss).2 s).1 (List.mem_of_getElem? hs)
    obtain ⟨b, hb, hbs⟩ := (mapM_seqs bs hm s).1 this
    exact List.ne_nil_of_mem (List.mem_filter.2 ⟨hb, by simpa using hbs⟩)
  · subst e'
    obtain ⟨h0', ss', hm', s'', hs'', e⟩ := key id' _ h'
    rw [hm] at hm'
    cases Option.some.inj hm'
    simp only [Prod.mk.injEq, List.cons.injEq, and_true] at e
    have he := e.2
    subst he
    have hlt := (List.getElem?_eq_some_iff.1 hs'').1
    have := (firstSeen_spec ss).1.getElem_inj_iff (hi := hlt) (hj := (List.getElem?_eq_some_iff.1 hs).1)
    have h2 : (firstSeen ss)[id'.toNat] = (firstSeen ss)[id.toNat]'((List.getElem?_eq_some_iff.1 hs).1) := by
      rw [(List.getElem?_eq_some_iff.1 hs'').2, (List.getElem?_eq_some_iff.1 hs).2]
    have := this.1 h2
    omega

/-- It fails for negative ids, with names given, and for ids from the number of sequences on. -/
theorem restrict_errors (id : Int) (names : List S) (bs : List (List (S × Nat))) :
    (id < 0 → restrict true id names bs = .error .value) ∧ (0 ≤ id → names ≠ [] → restrict true id names bs = .error .value)
      ∧ ∀ ss, bs.mapM batchSeq = some ss → 0 ≤ id → (firstSeen ss).length ≤ id.toNat → restrict true id [] bs = .error .index := by
  refine ⟨fun h => by simp [restrict, h], fun h h2 => ?_, fun ss hm h h2 => ?_⟩
  · have : ¬ id < 0 := by omega
    simp [restrict, this, h2]
  · have : ¬ id < 0 := by omega
    have hn : (firstSeen ss)[id.toNat]? = none := List.getElem?_eq_none h2
    simp [restrict, this, hm, hn]

/-- Other tasks: the batches of the named sequences, all without names. -/
theorem restrict_names (id : Int) (names : List S) (bs bs' : List (List (S × Nat))) (ns : List S) (h : restrict false id names bs = .ok (bs', ns)) :
    ns = names ∧ ∀ b, b ∈ bs' ↔ b ∈ bs ∧ (names ≠ [] → ∃ s ∈ names, batchSeq b = some s) := by
  unfold restrict at h
  simp only [Bool.false_eq_true, if_false] at h
  split_ifs at h with hn
  · have := Except.ok.inj h
    simp only [Prod.mk.injEq] at this
    obtain ⟨rfl, rfl⟩ := this
    simp [hn]
  · cases hm : bs.mapM batchSeq with
    | none => rw [hm] at h; cases h
    | some ss =>
      rw [hm] at h
      have := Except.ok.inj h
      simp only [Prod.mk.injEq] at this
      obtain ⟨rfl, rfl⟩ := this
      refine ⟨rfl, fun b => ?_⟩
      rw [List.mem_filter]
      refine and_congr Iff.rfl ?_
      cases batchSeq b with
      | none => simp [hn]
      | some s => simp [hn]

example : restrict true 1 [] [[(5, 0)], [(5, 1)], [(7, 2), (5, 0)]] = .ok ([[(7, 2), (5, 0)]], ([7] : List Nat)) := by decide +kernel

/-- The check for a single sequence: passes exactly if all frames are of one sequence. -/
theorem singleOk_spec (sets : List (List S)) : singleOk sets = true ↔ ∀ l ∈ sets, ∀ l' ∈ sets, ∀ s ∈ l, ∀ s' ∈ l', s = s' := by
  have h1 : singleOk sets = true ↔ ∀ s ∈ sets.flatten, ∀ s' ∈ sets.flatten, s = s' := by
    unfold singleOk
    rw [decide_eq_true_iff]
    constructor
    · intro h s hs s' hs'
      rw [← List.mem_dedup] at hs hs'
      match hd : sets.flatten.dedup with
      | [] => rw [hd] at hs; cases hs
      | [x] =>
        rw [hd] at hs hs'
        rw [List.mem_singleton.1 hs, List.mem_singleton.1 hs']
      | x :: y :: l => rw [hd] at h; simp at h
    · intro h
      match hd : sets.flatten.dedup with
      | [] => simp
      | [x] => simp
      | x :: y :: l =>
        exfalso
        have hn := List.nodup_dedup sets.flatten
        have hx : x ∈ sets.flatten := by rw [← List.mem_dedup, hd]; simp
        have hy : y ∈ sets.flatten := by rw [← List.mem_dedup, hd]; simp
        rw [hd] at hn
        exact (List.nodup_cons.1 hn).1 (by rw [h x hx y hy]; simp)
  rw [h1]
  simp only [List.mem_flatten]
  exact ⟨fun h l hl l' hl' s hs s' hs' => h s ⟨l, hl, hs⟩ s' ⟨l', hl', hs'⟩, fun h s ⟨l, hl, hs⟩ s' ⟨l', hl', hs'⟩ => h l hl l' hl' s hs s' hs'⟩

/-! ### Known views -/

theorem filterMap_perm_length (l : List (S × Nat)) (is : List Nat) (h : ∀ i ∈ is, i < l.length) : (is.filterMap fun i => l[i]?).length = is.length := by
  induction is with
  | nil => rfl
  | cons i is ih =>
    have hi := h i List.mem_cons_self
    rw [List.filterMap_cons, List.getElem?_eq_getElem hi]
    simp [ih fun j hj => h j (List.mem_cons_of_mem _ hj)]

/-- The views added: training frames of the sequence, as many as asked for or as there are. -/
theorem added_spec (n : Nat) (train : List (S × Nat)) (perm : List Nat) (s : S) (hp : perm.Perm (List.range (trainOf train s).length)) :
    (added n train perm s).length = min n (trainOf train s).length ∧ (∀ e ∈ added n train perm s, e ∈ train ∧ e.1 = s)
      ∧ (train.Nodup → (added n train perm s).Nodup) := by
  have hlt : ∀ i ∈ perm, i < (trainOf train s).length := fun i hi => List.mem_range.1 (hp.subset hi)
  unfold added
  refine ⟨?_, fun e he => ?_, fun hn => ?_⟩
  · rw [filterMap_perm_length _ _ fun i hi => hlt i (List.mem_of_mem_take hi), List.length_take, hp.length_eq, List.length_range]
  · obtain ⟨i, _, hi⟩ := List.mem_filterMap.1 he
    have := List.mem_of_getElem? hi
    unfold trainOf at this
    rw [List.mem_filter, decide_eq_true_eq] at this
    exact this
  · have hnd : (perm.take n).Nodup := (hp.nodup_iff.2 List.nodup_range).sublist (List.take_sublist _ _)
    have hnt : (trainOf train s).Nodup := hn.filter _
    refine hnd.filterMap fun i j e hi hj => ?_
    obtain ⟨h1, h2⟩ := List.getElem?_eq_some_iff.1 (Option.mem_def.1 hi)
    obtain ⟨h3, h4⟩ := List.getElem?_eq_some_iff.1 (Option.mem_def.1 hj)
    exact hnt.getElem_inj_iff.1 (h2.trans h4.symm)

/-- All batches: each keeps its frames and gets training frames of its first frame's sequence; it fails exactly if some batch is empty or of a sequence without training frames. -/
theorem extendAll_spec (n : Nat) (train : List (S × Nat)) : ∀ (bs : List (List (S × Nat))) (perms : List (List Nat)),
    ((∀ b ∈ bs, ∃ s, batchSeq b = some s ∧ trainOf train s ≠ []) →
      ∃ out, extendAll n train perms bs = .ok out ∧ out.length = bs.length
        ∧ ∀ (k : Nat) b, bs[k]? = some b → ∃ s, batchSeq b = some s ∧ out[k]? = some (b ++ added n train ((perms.drop k).headD []) s))
      ∧ ((∃ b ∈ bs, ∀ s, batchSeq b = some s → trainOf train s = []) → ∃ e, extendAll n train perms bs = .error e)
  | [], perms => by
    refine ⟨fun _ => ⟨[], rfl, rfl, fun k b h => by simp at h⟩, fun ⟨b, hb, _⟩ => by cases hb⟩
  | b :: bs, perms => by
    have ih := extendAll_spec n train bs perms.tail
    refine ⟨fun h => ?_, fun h => ?_⟩
    · obtain ⟨s, hs, ht⟩ := h b List.mem_cons_self
      obtain ⟨out, ho, hl, hk⟩ := ih.1 fun b' hb' => h b' (List.mem_cons_of_mem _ hb')
      refine ⟨(b ++ added n train (perms.headD []) s) :: out, ?_, by simp [hl], fun k b' hb' => ?_⟩
      · simp only [extendAll, extendOne, hs, ht, if_false, ho]
        rfl
      · cases k with
        | zero =>
          simp only [List.getElem?_cons_zero, Option.some.injEq] at hb'
          subst hb'
          exact ⟨s, hs, by rw [List.drop_zero]; rfl⟩
        | succ k =>
          rw [List.getElem?_cons_succ] at hb'
          obtain ⟨s', h1, h2⟩ := hk k b' hb'
          refine ⟨s', h1, ?_⟩
          rw [List.getElem?_cons_succ, h2]
          cases perms <;> simp
    · obtain ⟨b', hb', hn⟩ := h
      unfold extendAll
      rcases List.mem_cons.1 hb' with rfl | hb'
      · unfold extendOne
        cases hs : batchSeq b' with
        | none => exact ⟨.index, rfl⟩
        | some s =>
          refine ⟨.key, ?_⟩
          dsimp only
          rw [if_pos (hn s hs)]
          rfl
      · obtain ⟨e, he⟩ := ih.2 ⟨b', hb', hn⟩
        cases h1 : extendOne n train (perms.headD []) b with
        | error e' => exact ⟨e', rfl⟩
        | ok b'' => exact ⟨e, by rw [he]; rfl⟩

theorem testList_sup (n : Nat) (train : List (S × Nat)) : ∀ (bs : List (List (S × Nat))) (perms : List (List Nat)) (test : List (S × Nat)),
    ∀ e ∈ test, e ∈ testList n train perms bs test
  | [], _, _, _, h => h
  | _ :: bs, perms, _, e, h => testList_sup n train bs perms.tail _ e (List.mem_append_left _ h)

/-- If the batches' frames are in the test list, the extended batches' frames are in the extended list: evaluation finds every frame. -/
theorem extend_found (n : Nat) (train : List (S × Nat)) : ∀ (bs : List (List (S × Nat))) (perms : List (List Nat)) (test : List (S × Nat)) {out : List (List (S × Nat))},
    (∀ b ∈ bs, ∀ e ∈ b, e ∈ test) → extendAll n train perms bs = .ok out → ∀ b ∈ out, ∀ e ∈ b, e ∈ testList n train perms bs test
  | [], _, _, out, _, ho, b, hb, _, _ => by
    cases Except.ok.inj ho
    cases hb
  | b0 :: bs, perms, test, out, h, ho, b, hb, e, he => by
    unfold extendAll at ho
    cases h1 : extendOne n train (perms.headD []) b0 with
    | error x => rw [h1] at ho; cases ho
    | ok b' =>
      rw [h1] at ho
      cases h2 : extendAll n train perms.tail bs with
      | error x =>
        rw [h2] at ho
        cases ho
      | ok out' =>
        rw [h2] at ho
        have hh : b' :: out' = out := Except.ok.inj ho
        subst hh
        unfold testList
        rcases List.mem_cons.1 hb with rfl | hb
        · unfold extendOne at h1
          cases hs : batchSeq b0 with
          | none => rw [hs] at h1; cases h1
          | some s =>
            rw [hs] at h1
            dsimp only at h1
            split_ifs at h1
            have hb := Except.ok.inj h1
            subst hb
            refine testList_sup n train bs _ _ e ?_
            rcases List.mem_append.1 he with he | he
            · exact List.mem_append_left _ (h b0 List.mem_cons_self e he)
            · exact List.mem_append_right _ he
        · exact extend_found n train bs perms.tail _ (fun b hb e he => List.mem_append_left _ (h b (List.mem_cons_of_mem _ hb) e he)) h2 b hb e he

/-- Frames of the batch that are training frames themselves may be added again: the target is then given as its own source. -/
theorem extend_again : extendAll 1 [((3 : Nat), 0)] [[0]] [[(3, 0)]] = .ok [[(3, 0), (3, 0)]] := by decide +kernel

/-- A sequence of the test batches without training frames: KeyError. -/
theorem extend_key (n : Nat) (train : List (S × Nat)) (perms : List (List Nat)) (s : S) (f : Nat) (b : List (S × Nat)) (bs : List (List (S × Nat)))
    (h : ∀ e ∈ train, e.1 ≠ s) : extendAll n train perms (((s, f) :: b) :: bs) = .error .key := by
  have : trainOf train s = [] := by
    unfold trainOf
    rw [List.filter_eq_nil_iff]
    intro e he
    simp [h e he]
  simp only [extendAll, extendOne, batchSeq, List.head?_cons, Option.map_some, this, if_true]
  rfl

end Names

end P3D.MapProvider
