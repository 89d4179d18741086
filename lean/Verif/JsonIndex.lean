/-
Datasets indexed by JSON annotations (`implicitron/dataset/json_index_dataset.py`, `dataset_base.py`): filters, indices by sequence and frame number, subsets, joining, order of frames.

Frames and sequences are as loaded; dictionaries are lists of entries with different keys in the order of insertion.  Random sampling is any function of the sequence and its indices.
Not modelled: files, `FrameDataBuilder` (FrameCrop), warnings, negative indices.
-/
import Mathlib.Data.List.Nodup
import Mathlib.Data.List.Range
import Mathlib.Data.List.Sort
import Mathlib.Algebra.Order.Ring.Rat
import Mathlib.Algebra.BigOperators.Group.List.Basic
import Mathlib.Tactic.Linarith

set_option linter.unusedSectionVars false

namespace P3D.JsonIndex

inductive Err
  | value
  | index
  | assertion
  | type
  deriving DecidableEq, Repr

/-! ### The code -/

/-- A frame annotation with its subset; `mask` is `none` without a mask annotation, `some none` for one without mass. -/
structure Frame where
  seq : String
  num : Nat
  time : Option ℚ
  path : String
  subset : Option String
  mask : Option (Option ℚ)
  deriving DecidableEq

/-- The settings of the filters (json_index_dataset.py:135-161). -/
structure Cfg where
  noEmpty : Bool
  subsets : List String
  hasLists : Bool
  cats : List String
  pick : List String
  exclude : List String
  limitSeq : Int
  perSeq : Int
  limit : Int

/-- The dataset: frames, the category of each sequence, and the evaluation batches. -/
structure DS where
  frames : List Frame
  seqs : List (String × String)
  evalB : Option (List (List Nat))
  deriving DecidableEq

/-- `_seq_to_idx[s]` (lines 624-630). -/
def seqToIdx (fs : List Frame) (s : String) : List Nat := (List.range fs.length).filter fun i => (fs[i]?.map Frame.seq) = some s

/-- `_seq_to_idx.keys()`: in the order of the first frames. -/
def seqNames : List Frame → List String
  | [] => []
  | f :: fs => f.seq :: (seqNames fs).filter (· ≠ f.seq)

/-- `positive_mass` (lines 521-527). -/
def positiveMass (f : Frame) : Except Err Bool :=
  match f.mask with
  | none => .ok false
  | some none => .error .value
  | some (some m) => .ok (decide (1 < m))

/-- Removal of frames with empty masks (lines 514-534). -/
def dropEmpty (c : Cfg) (fs : List Frame) : Except Err (List Frame) :=
  if c.noEmpty = true then
    if fs.any (fun f => f.mask = some none) then .error .value else .ok (fs.filter fun f => match f.mask with | some (some m) => decide (1 < m) | _ => false)
  else .ok fs

/-- The mask is known to be positive. -/
def massOk (f : Frame) : Bool := match positiveMass f with
  | .ok b => b
  | .error _ => false

/-- With the option set the frames kept are those whose mask has more than one pixel; a mask without a stored mass is an error, a frame without a mask goes. -/
theorem dropEmpty_mass (c : Cfg) (hc : c.noEmpty = true) (fs : List Frame) (l : List Frame) :
    dropEmpty c fs = .ok l ↔ (∀ f ∈ fs, ∃ b, positiveMass f = .ok b) ∧ l = fs.filter massOk := by
  have e : ∀ f : Frame, (∃ b, positiveMass f = .ok b) ↔ f.mask ≠ some none := by
    intro f
    unfold positiveMass
    rcases f.mask with _ | _ | m <;> simp
  unfold dropEmpty
  rw [if_pos hc]
  by_cases h : fs.any (fun f => f.mask = some none) = true
  · rw [if_pos h]
    obtain ⟨f, hf, hm⟩ := List.any_eq_true.1 h
    constructor
    · intro hh; cases hh
    · rintro ⟨h1, -⟩
      exact absurd (of_decide_eq_true hm) ((e f).1 (h1 f hf))
  · rw [if_neg h]
    have h1 : ∀ f ∈ fs, ∃ b, positiveMass f = .ok b := by
      intro f hf
      rw [e]
      intro hm
      exact h (List.any_eq_true.2 ⟨f, hf, decide_eq_true hm⟩)
    have h2 : (fun f : Frame => match f.mask with | some (some m) => decide (1 < m) | _ => false) = massOk := by
      funext f
      unfold massOk positiveMass
      rcases f.mask with _ | _ | m <;> rfl
    rw [h2, Except.ok.injEq]
    exact ⟨fun hh => ⟨h1, hh.symm⟩, fun hh => hh.2.symm⟩

/-- `_invalidate_indexes(filter_seq_annots=True)`. -/
def keepSeqs (fs : List Frame) (ss : List (String × String)) : List (String × String) := ss.filter fun s => fs.any fun f => f.seq = s.1

/-- The filter by subsets (lines 536-553). -/
def bySubset (c : Cfg) (fs : List Frame) (ss : List (String × String)) : Except Err (List Frame × List (String × String)) :=
  if c.subsets = [] then .ok (fs, ss)
  else if c.hasLists = false then .error .value
  else if (fs.filter fun f => f.subset.any (· ∈ c.subsets)) = [] then .error .value
  else .ok (fs.filter fun f => f.subset.any (· ∈ c.subsets), keepSeqs (fs.filter fun f => f.subset.any (· ∈ c.subsets)) ss)

/-- The filters of sequences (lines 555-583). -/
def bySeq (c : Cfg) (ss : List (String × String)) : List (String × String) :=
  let ss := if c.cats = [] then ss else ss.filter fun s => s.2 ∈ c.cats
  let ss := if c.pick = [] then ss else ss.filter fun s => s.1 ∈ c.pick
  let ss := if c.exclude = [] then ss else ss.filter fun s => s.1 ∉ c.exclude
  if 0 < c.limitSeq then ss.take c.limitSeq.toNat else ss

/-- Frames of retained sequences (lines 585-590). -/
def inSeqs (fs : List Frame) (ss : List (String × String)) : List Frame := fs.filter fun f => ss.any fun s => s.1 = f.seq

/-- The indices kept of each sequence (lines 594-608). -/
def keepIdx (n : Nat) (shuffle : String → List Nat → List Nat) (fs : List Frame) : List Nat := (seqNames fs).flatMap fun s => (shuffle s (seqToIdx fs s)).take n

def pickIdx (fs : List Frame) (l : List Nat) : List Frame := l.filterMap fun i => fs[i]?

/-- `_filter_db` (lines 513-623) after the frames of retained sequences. -/
def limits (c : Cfg) (shuffle : String → List Nat → List Nat) (fs : List Frame) (ss : List (String × String)) : List Frame × List (String × String) :=
  let fs := if 0 < c.perSeq then pickIdx fs (keepIdx c.perSeq.toNat shuffle fs) else fs
  if 0 < c.limit ∧ c.limit < fs.length then (fs.take c.limit.toNat, keepSeqs (fs.take c.limit.toNat) ss) else (fs, ss)

/-- `_filter_db` (lines 513-623). -/
def filterDb (c : Cfg) (shuffle : String → List Nat → List Nat) (fs : List Frame) (ss : List (String × String)) : Except Err (List Frame × List (String × String)) :=
  (dropEmpty c fs).bind fun fs => (bySubset c fs ss).map fun r => limits c shuffle (inSeqs r.1 (bySeq c r.2)) (bySeq c r.2)

/-- `is_filtered` (lines 246-262). -/
def isFiltered (c : Cfg) : Bool :=
  c.noEmpty || decide (0 < c.limit) || decide (0 < c.limitSeq) || decide (c.pick ≠ []) || decide (c.exclude ≠ []) || decide (c.cats ≠ []) || decide (0 < c.perSeq)

/-- `_dataset_seq_frame_n_index[seq][num]` (lines 301-309): a later frame with the same number replaces the earlier one. -/
def find (fs : List Frame) (s : String) (n : Nat) : Option Nat := ((List.range fs.length).filter fun i => (fs[i]?.map fun f => (f.seq, f.num)) = some (s, n)).getLast?

/-- `_get_dataset_idx` (lines 311-335); paths as normalised. -/
def getIdx (fs : List Frame) (missing : Bool) (b : String × Nat × Option String) : Except Err (Option Nat) :=
  match find fs b.1 b.2.1 with
  | none => if missing = true then .ok none else .error .index
  | some i =>
    match b.2.2 with
    | none => .ok (some i)
    | some p => if (fs[i]?.map Frame.path) = some p then .ok (some i) else .error .assertion

/-- `seq_frame_index_to_dataset_index` (lines 264-350) for one batch. -/
def getBatch (fs : List Frame) (missing : Bool) : List (String × Nat × Option String) → Except Err (List (Option Nat))
  | [] => .ok []
  | b :: bs => (getIdx fs missing b).bind fun i => (getBatch fs missing bs).map (i :: ·)

/-- All batches, with missing entries removed if asked (lines 337-350). -/
def removeMissing (l : List (List (Option Nat))) : List (List Nat) := (l.map fun b => b.filterMap id).filter fun b => b ≠ []

/-- `subset_from_frame_index` (lines 352-405); the deep copy keeps the evaluation batches. -/
def subset (c : Cfg) (d : DS) (index : List (String × Nat × Option String)) (allow : Bool) : Except Err DS :=
  (getBatch d.frames (isFiltered c && allow) index).bind fun is =>
    let fs := pickIdx d.frames (is.filterMap id)
    .ok ⟨fs, keepSeqs fs d.seqs, d.evalB⟩

/-- `dict.update`: later entries replace. -/
def updateSeqs (ss ts : List (String × String)) : List (String × String) :=
  (ss.map fun s => (s.1, (ts.lookup s.1).getD s.2)) ++ ts.filter fun t => ¬ ss.any fun s => s.1 = t.1

/-- `join` (lines 210-244) with one or more other datasets; `none` is the TypeError of `functools.reduce` on an empty list. -/
def join (d : DS) (others : List DS) : Option (Except Err DS) :=
  if others = [] then none
  else
    let fs := d.frames ++ others.flatMap DS.frames
    let ss := others.foldl (fun a o => updateSeqs a o.seqs) d.seqs
    let bs := d.evalB :: others.map DS.evalB
    if bs.all (fun b => b = none) then some (.ok ⟨fs, keepSeqs fs ss, none⟩)
    else if bs.all (fun b => b ≠ none) then some (.ok ⟨fs, keepSeqs fs ss, some (bs.flatMap fun b => b.getD [])⟩)
    else some (.error .value)

/-- `get_frame_numbers_and_timestamps` (lines 637-655). -/
def numsTimes (fs : List Frame) (idxs : List Nat) (filter : Option (List String)) : List (Nat × Option ℚ) :=
  (idxs.filterMap fun i => fs[i]?).filterMap fun f => match filter with
    | none => some (f.num, f.time)
    | some l => if f.subset.any (· ∈ l) then some (f.num, f.time) else none

/-- The order of tuples (timestamp, frame number, index). -/
def le3 (a b : ℚ × Nat × Nat) : Prop := a.1 < b.1 ∨ (a.1 = b.1 ∧ (a.2.1 < b.2.1 ∨ (a.2.1 = b.2.1 ∧ a.2.2 ≤ b.2.2)))

instance : DecidableRel le3 := fun a b => by unfold le3; infer_instance

/-- `sequence_frames_in_order` (dataset_base.py:106-135): indices of all frames of the sequence are zipped with the numbers and timestamps of those in the subsets.  Timestamps that are
partly `None` cannot be compared. -/
def inOrder (fs : List Frame) (s : String) (filter : Option (List String)) : Except Err (List (ℚ × Nat × Nat)) :=
  let l := List.zipWith (fun i (nt : Nat × Option ℚ) => (nt.2, nt.1, i)) (seqToIdx fs s) (numsTimes fs (seqToIdx fs s) filter)
  if l.any (fun x => x.1 = none) && l.any (fun x => x.1 ≠ none) then .error .type
  else .ok ((l.map fun x => (x.1.getD 0, x.2)).insertionSort le3)

/-! ### Indices of sequences -/

/-- The indices of a sequence are those of its frames, in ascending order. -/
theorem seqToIdx_spec (fs : List Frame) (s : String) : (∀ i, i ∈ seqToIdx fs s ↔ ∃ f, fs[i]? = some f ∧ f.seq = s) ∧ (seqToIdx fs s).Pairwise (· < ·) := by
  constructor
  · intro i
    unfold seqToIdx
    rw [List.mem_filter, List.mem_range, decide_eq_true_eq, Option.map_eq_some_iff]
    constructor
    · exact fun h => h.2
    · intro h
      obtain ⟨f, hf, -⟩ := id h
      exact ⟨(List.getElem?_eq_some_iff.mp hf).1, h⟩
  · exact List.pairwise_lt_range.filter _

theorem seqNames_spec (fs : List Frame) : (seqNames fs).Nodup ∧ ∀ s, s ∈ seqNames fs ↔ ∃ f ∈ fs, f.seq = s := by
  induction fs with
  | nil => exact ⟨List.nodup_nil, by simp [seqNames]⟩
  | cons f fs ih =>
    rw [seqNames]
    refine ⟨List.nodup_cons.mpr ⟨by simp, ih.1.filter _⟩, ?_⟩
    intro s
    rw [List.mem_cons, List.mem_filter, ih.2 s]
    by_cases h : s = f.seq
    · simp [h]
    · have h' : ¬ f.seq = s := fun e => h e.symm
      simp [h, h']

theorem pick_mem (fs : List Frame) (l : List Nat) (f : Frame) : f ∈ pickIdx fs l ↔ ∃ i ∈ l, fs[i]? = some f := by
  unfold pickIdx
  rw [List.mem_filterMap]

theorem keepSeqs_mem (fs : List Frame) (ss : List (String × String)) (s : String × String) : s ∈ keepSeqs fs ss ↔ s ∈ ss ∧ ∃ f ∈ fs, f.seq = s.1 := by
  unfold keepSeqs
  rw [List.mem_filter, List.any_eq_true]
  simp

/-! ### Filters -/

/-- The frames that remain without the limits on frames: exactly those with a mask of mass above 1 (if asked), in one of the subsets (if given), and in a retained sequence; their order is kept. -/
theorem filter_spec (c : Cfg) (shuffle : String → List Nat → List Nat) (fs : List Frame) (ss : List (String × String)) (hp : c.perSeq ≤ 0) (hl : c.limit ≤ 0) (gs : List Frame)
    (ts : List (String × String)) (h : filterDb c shuffle fs ss = .ok (gs, ts)) :
    gs.Sublist fs ∧ (∀ f, f ∈ gs ↔ f ∈ fs ∧ (c.noEmpty = true → ∃ m, f.mask = some (some m) ∧ 1 < m) ∧ (c.subsets ≠ [] → ∃ s ∈ c.subsets, f.subset = some s) ∧ ∃ t ∈ ts, t.1 = f.seq) := by
  unfold filterDb at h
  cases hd : dropEmpty c fs with
  | error e =>
    rw [hd] at h
    cases h
  | ok ds =>
    rw [hd] at h
    have h : (bySubset c ds ss).map (fun r => limits c shuffle (inSeqs r.1 (bySeq c r.2)) (bySeq c r.2)) = .ok (gs, ts) := h
    cases hb : bySubset c ds ss with
    | error e =>
      rw [hb] at h
      cases h
    | ok r =>
      rw [hb] at h
      have h := Except.ok.inj h
      dsimp only at h
      have hlim : ∀ fs ss, limits c shuffle fs ss = (fs, ss) := by
        intro fs ss
        unfold limits
        simp only [if_neg (by omega : ¬ 0 < c.perSeq)]
        rw [if_neg (fun h => by omega)]
      rw [hlim] at h
      obtain ⟨h1, h2⟩ := Prod.mk.inj h
      have hds : ds.Sublist fs ∧ ∀ f, f ∈ ds ↔ f ∈ fs ∧ (c.noEmpty = true → ∃ m, f.mask = some (some m) ∧ 1 < m) := by
        unfold dropEmpty at hd
        cases hn : c.noEmpty with
        | false =>
          rw [hn, if_neg (by simp)] at hd
          rw [← Except.ok.inj hd]
          exact ⟨List.Sublist.refl _, fun f => by simp⟩
        | true =>
          rw [hn, if_pos rfl] at hd
          by_cases ha : fs.any (fun f => f.mask = some none) = true
          · rw [if_pos ha] at hd
            cases hd
          · rw [if_neg ha] at hd
            rw [← Except.ok.inj hd]
            refine ⟨List.filter_sublist, fun f => ?_⟩
            rw [List.mem_filter]
            refine and_congr_right fun _ => ?_
            rcases hm : f.mask with _ | _ | m
            · simp
            · simp
            · simp
      have hr : r.1.Sublist ds ∧ ∀ f, f ∈ r.1 ↔ f ∈ ds ∧ (c.subsets ≠ [] → ∃ s ∈ c.subsets, f.subset = some s) := by
        unfold bySubset at hb
        by_cases h0 : c.subsets = []
        · rw [if_pos h0] at hb
          rw [← Except.ok.inj hb]
          exact ⟨List.Sublist.refl _, fun f => by simp [h0]⟩
        · rw [if_neg h0] at hb
          by_cases h1 : c.hasLists = false
          · rw [if_pos h1] at hb
            cases hb
          · rw [if_neg h1] at hb
            by_cases h2 : (ds.filter fun f => f.subset.any (· ∈ c.subsets)) = []
            · rw [if_pos h2] at hb
              cases hb
            · rw [if_neg h2] at hb
              rw [← Except.ok.inj hb]
              refine ⟨List.filter_sublist, fun f => ?_⟩
              rw [List.mem_filter]
              refine and_congr_right fun _ => ?_
              cases f.subset with
              | none => simp [h0]
              | some s => simp [h0]
      refine ⟨?_, ?_⟩
      · rw [← h1]
        exact List.filter_sublist.trans (hr.1.trans hds.1)
      · intro f
        rw [← h1, ← h2, inSeqs, List.mem_filter, hr.2, hds.2, List.any_eq_true]
        simp only [decide_eq_true_eq]
        tauto

/-- The retained sequences: those (with a frame in the subsets, if given) of the categories, picked and not excluded, in their order; a limit takes the first of these. -/
theorem bySeq_spec (c : Cfg) (ss : List (String × String)) : (bySeq c ss).Sublist ss ∧
    (c.limitSeq ≤ 0 → ∀ s, s ∈ bySeq c ss ↔ s ∈ ss ∧ (c.cats ≠ [] → s.2 ∈ c.cats) ∧ (c.pick ≠ [] → s.1 ∈ c.pick) ∧ (c.exclude ≠ [] → s.1 ∉ c.exclude)) ∧
    (0 < c.limitSeq → (bySeq c ss).length = min c.limitSeq.toNat (bySeq { c with limitSeq := 0 } ss).length ∧ (bySeq c ss) <+: (bySeq { c with limitSeq := 0 } ss)) := by
  have hsub : ∀ (p : Prop) [Decidable p] (l : List (String × String)) (q : String × String → Bool), (if p then l else l.filter q).Sublist l := by
    intro p _ l q
    split_ifs
    · exact List.Sublist.refl _
    · exact List.filter_sublist
  refine ⟨?_, ?_, ?_⟩
  · unfold bySeq
    dsimp only
    have h3 := (hsub (c.exclude = []) _ fun s => s.1 ∉ c.exclude).trans ((hsub (c.pick = []) _ fun s => s.1 ∈ c.pick).trans (hsub (c.cats = []) ss fun s => s.2 ∈ c.cats))
    by_cases hl : 0 < c.limitSeq
    · rw [if_pos hl]
      exact (List.take_sublist _ _).trans h3
    · rw [if_neg hl]
      exact h3
  · intro hl s
    unfold bySeq
    dsimp only
    rw [if_neg (by omega)]
    by_cases h1 : c.cats = [] <;> by_cases h2 : c.pick = [] <;> by_cases h3 : c.exclude = [] <;> simp [h1, h2, h3] <;> tauto
  · intro hl
    unfold bySeq
    dsimp only
    rw [if_pos hl, if_neg (lt_irrefl 0)]
    exact ⟨List.length_take, List.take_prefix _ _⟩

/-- Every frame left has its sequence annotated, so that it can be loaded. -/
theorem filter_annotated (c : Cfg) (shuffle : String → List Nat → List Nat) (fs : List Frame) (ss : List (String × String)) (gs : List Frame) (ts : List (String × String))
    (h : filterDb c shuffle fs ss = .ok (gs, ts)) : ∀ f ∈ gs, ∃ t ∈ ts, t.1 = f.seq := by
  unfold filterDb at h
  cases hd : dropEmpty c fs with
  | error e =>
    rw [hd] at h
    cases h
  | ok ds =>
    rw [hd] at h
    have h : (bySubset c ds ss).map (fun r => limits c shuffle (inSeqs r.1 (bySeq c r.2)) (bySeq c r.2)) = .ok (gs, ts) := h
    cases hb : bySubset c ds ss with
    | error e =>
      rw [hb] at h
      cases h
    | ok r =>
      rw [hb] at h
      have h := Except.ok.inj h
      dsimp only at h
      generalize bySeq c r.2 = us at h
      have hin : ∀ f ∈ inSeqs r.1 us, ∃ t ∈ us, t.1 = f.seq := by
        intro f hf
        rw [inSeqs, List.mem_filter, List.any_eq_true] at hf
        obtain ⟨-, t, ht, he⟩ := hf
        exact ⟨t, ht, by simpa using he⟩
      generalize inSeqs r.1 us = vs at h hin
      unfold limits at h
      dsimp only at h
      have hin' : ∀ f ∈ (if 0 < c.perSeq then pickIdx vs (keepIdx c.perSeq.toNat shuffle vs) else vs), ∃ t ∈ us, t.1 = f.seq := by
        intro f hf
        split_ifs at hf
        · obtain ⟨i, -, hi⟩ := (pick_mem _ _ _).mp hf
          exact hin f (List.mem_of_getElem? hi)
        · exact hin f hf
      generalize (if 0 < c.perSeq then pickIdx vs (keepIdx c.perSeq.toNat shuffle vs) else vs) = ws at h hin'
      by_cases hl : 0 < c.limit ∧ c.limit < ws.length
      · rw [if_pos hl] at h
        obtain ⟨h1, h2⟩ := Prod.mk.inj h
        intro f hf
        rw [← h1] at hf
        obtain ⟨t, ht, he⟩ := hin' f (List.mem_of_mem_take hf)
        refine ⟨t, ?_, he⟩
        rw [← h2, keepSeqs_mem]
        exact ⟨ht, f, hf, he.symm⟩
      · rw [if_neg hl] at h
        obtain ⟨h1, h2⟩ := Prod.mk.inj h
        rw [← h1, ← h2]
        exact hin'

/-- At most the given number of frames of each sequence is kept, all if there are no more, and never one twice. -/
theorem keepIdx_spec (n : Nat) (shuffle : String → List Nat → List Nat) (hs : ∀ s l, (shuffle s l).Perm l) (fs : List Frame) :
    (keepIdx n shuffle fs).Nodup ∧ (∀ i ∈ keepIdx n shuffle fs, i < fs.length) ∧
      ∀ s, ((keepIdx n shuffle fs).filter fun i => (fs[i]?.map Frame.seq) = some s).length = min n (seqToIdx fs s).length := by
  have hmem : ∀ s i, i ∈ (shuffle s (seqToIdx fs s)).take n → ∃ f, fs[i]? = some f ∧ f.seq = s := by
    intro s i hi
    exact ((seqToIdx_spec fs s).1 i).mp ((hs s _).mem_iff.mp (List.mem_of_mem_take hi))
  refine ⟨?_, ?_, ?_⟩
  · unfold keepIdx
    rw [List.nodup_flatMap]
    refine ⟨fun s _ => ?_, ?_⟩
    · have := ((hs s (seqToIdx fs s)).nodup_iff.mpr (List.Pairwise.imp (fun h => ne_of_lt h) (seqToIdx_spec fs s).2))
      exact this.sublist (List.take_sublist _ _)
    · refine (seqNames_spec fs).1.imp_of_mem ?_
      intro a b _ _ hab i ha hb
      obtain ⟨f, h1, h2⟩ := hmem a i ha
      obtain ⟨g, h3, h4⟩ := hmem b i hb
      rw [h1] at h3
      rw [Option.some.inj h3] at h2
      exact hab (h2.symm.trans h4)
  · intro i hi
    unfold keepIdx at hi
    obtain ⟨s, -, hi⟩ := List.mem_flatMap.mp hi
    obtain ⟨f, h1, -⟩ := hmem s i hi
    exact (List.getElem?_eq_some_iff.mp h1).1
  · intro s
    have key : ∀ names : List String, names.Nodup →
        ((names.flatMap fun s => (shuffle s (seqToIdx fs s)).take n).filter fun i => (fs[i]?.map Frame.seq) = some s).length = if s ∈ names then min n (seqToIdx fs s).length else 0 := by
      intro names
      induction names with
      | nil => simp
      | cons a names ih =>
        intro hn
        rw [List.nodup_cons] at hn
        rw [List.flatMap_cons, List.filter_append, List.length_append, ih hn.2]
        by_cases h : s = a
        · subst h
          rw [if_neg hn.1, if_pos List.mem_cons_self, List.filter_eq_self.mpr, List.length_take, (hs s _).length_eq, Nat.add_zero]
          intro i hi
          obtain ⟨f, h1, h2⟩ := hmem s i hi
          simp [h1, h2]
        · rw [List.filter_eq_nil_iff.mpr, List.length_nil, Nat.zero_add]
          · simp [h]
          · intro i hi
            obtain ⟨f, h1, h2⟩ := hmem a i hi
            simp only [h1, Option.map_some, decide_eq_true_eq, Option.some.injEq]
            rw [h2]
            exact fun e => h e.symm
    rw [keepIdx, key _ (seqNames_spec fs).1]
    split_ifs with hsn
    · rfl
    · have : seqToIdx fs s = [] := by
        rw [List.eq_nil_iff_forall_not_mem]
        intro i hi
        obtain ⟨f, h1, h2⟩ := ((seqToIdx_spec fs s).1 i).mp hi
        exact hsn (((seqNames_spec fs).2 s).mpr ⟨f, List.mem_of_getElem? h1, h2⟩)
      simp [this]

/-! ### Frames by number -/

/-- The index found is that of the last frame with this sequence and number. -/
theorem find_spec (fs : List Frame) (s : String) (n : Nat) : (find fs s n = none ↔ ∀ f ∈ fs, ¬ (f.seq = s ∧ f.num = n)) ∧
    ∀ i, find fs s n = some i → ∃ f, fs[i]? = some f ∧ f.seq = s ∧ f.num = n ∧ ∀ j g, i < j → fs[j]? = some g → ¬ (g.seq = s ∧ g.num = n) := by
  have hmem : ∀ i, i ∈ (List.range fs.length).filter (fun i => (fs[i]?.map fun f => (f.seq, f.num)) = some (s, n)) ↔ ∃ f, fs[i]? = some f ∧ f.seq = s ∧ f.num = n := by
    intro i
    rw [List.mem_filter, List.mem_range, decide_eq_true_eq, Option.map_eq_some_iff]
    constructor
    · rintro ⟨-, f, h1, h2⟩
      exact ⟨f, h1, (Prod.mk.inj h2).1, (Prod.mk.inj h2).2⟩
    · rintro ⟨f, h1, h2, h3⟩
      exact ⟨(List.getElem?_eq_some_iff.mp h1).1, f, h1, by rw [h2, h3]⟩
  have hs : ((List.range fs.length).filter (fun i => (fs[i]?.map fun f => (f.seq, f.num)) = some (s, n))).Pairwise (· < ·) := List.pairwise_lt_range.filter _
  unfold find
  generalize (List.range fs.length).filter (fun i => (fs[i]?.map fun f => (f.seq, f.num)) = some (s, n)) = l at *
  constructor
  · rw [List.getLast?_eq_none_iff]
    constructor
    · intro h f hf hc
      obtain ⟨i, hi, he⟩ := List.getElem_of_mem hf
      have : i ∈ l := (hmem i).mpr ⟨f, by rw [List.getElem?_eq_getElem hi, he], hc⟩
      rw [h] at this
      cases this
    · intro h
      rw [List.eq_nil_iff_forall_not_mem]
      intro i hi
      obtain ⟨f, h1, h2⟩ := (hmem i).mp hi
      exact h f (List.mem_of_getElem? h1) h2
  · intro i hi
    obtain ⟨l', rfl⟩ := List.getLast?_eq_some_iff.mp hi
    obtain ⟨f, h1, h2, h3⟩ := (hmem i).mp (by simp)
    refine ⟨f, h1, h2, h3, ?_⟩
    intro j g hj hg hc
    have hm := (hmem j).mpr ⟨g, hg, hc⟩
    rcases List.mem_append.mp hm with hm | hm
    · have := (List.pairwise_append.mp hs).2.2 j hm i (by simp)
      omega
    · have := List.mem_singleton.mp hm
      omega

theorem getBatch_spec (fs : List Frame) (missing : Bool) (bs : List (String × Nat × Option String)) (is : List (Option Nat)) (h : getBatch fs missing bs = .ok is) :
    is = bs.map fun b => find fs b.1 b.2.1 := by
  induction bs generalizing is with
  | nil => exact (Except.ok.inj h).symm
  | cons b bs ih =>
    rw [getBatch] at h
    cases hg : getIdx fs missing b with
    | error e =>
      rw [hg] at h
      cases h
    | ok i =>
      cases hb : getBatch fs missing bs with
      | error e =>
        rw [hg, hb] at h
        cases h
      | ok js =>
        rw [hg, hb] at h
        have h : i :: js = is := Except.ok.inj h
        rw [← h, ih js hb, List.map_cons]
        congr 1
        unfold getIdx at hg
        cases hf : find fs b.1 b.2.1 with
        | none =>
          rw [hf] at hg
          dsimp only at hg
          split_ifs at hg
          exact (Except.ok.inj hg).symm
        | some k =>
          rw [hf] at hg
          dsimp only at hg
          cases hp : b.2.2 with
          | none =>
            rw [hp] at hg
            exact (Except.ok.inj hg).symm
          | some p =>
            rw [hp] at hg
            dsimp only at hg
            split_ifs at hg
            exact (Except.ok.inj hg).symm

/-- Without permission a missing frame raises IndexError or an earlier error; with it and no paths given the look-up always succeeds. -/
theorem getBatch_missing (fs : List Frame) (bs : List (String × Nat × Option String)) :
    ((∃ b ∈ bs, find fs b.1 b.2.1 = none) → ∀ is, getBatch fs false bs ≠ .ok is) ∧ ((∀ b ∈ bs, b.2.2 = none) → getBatch fs true bs = .ok (bs.map fun b => find fs b.1 b.2.1)) := by
  induction bs with
  | nil => exact ⟨fun ⟨b, hb, _⟩ => (by cases hb), fun _ => rfl⟩
  | cons b bs ih =>
    constructor
    · rintro ⟨a, ha, hn⟩ is h
      rw [getBatch] at h
      rcases List.mem_cons.mp ha with rfl | ha
      · unfold getIdx at h
        rw [hn] at h
        cases h
      · cases hg : getIdx fs false b with
        | error e =>
          rw [hg] at h
          cases h
        | ok i =>
          cases hb : getBatch fs false bs with
          | error e =>
            rw [hg, hb] at h
            cases h
          | ok js => exact ih.1 ⟨a, ha, hn⟩ js hb
    · intro h
      rw [getBatch, ih.2 fun a ha => h a (List.mem_cons_of_mem _ ha)]
      have : getIdx fs true b = .ok (find fs b.1 b.2.1) := by
        unfold getIdx
        rw [h b List.mem_cons_self]
        cases find fs b.1 b.2.1 with
        | none => rfl
        | some i => rfl
      rw [this]
      rfl

theorem removeMissing_spec (l : List (List (Option Nat))) : (∀ b ∈ removeMissing l, b ≠ []) ∧ (removeMissing l).flatten = l.flatten.filterMap id := by
  constructor
  · intro b hb
    unfold removeMissing at hb
    simpa using (List.mem_filter.mp hb).2
  · unfold removeMissing
    induction l with
    | nil => rfl
    | cons a l ih =>
      rw [List.map_cons, List.flatten_cons, List.filterMap_append, ← ih]
      by_cases h : a.filterMap id = []
      · rw [List.filter_cons_of_neg (by simp only [ne_eq, decide_not, Bool.not_eq_true', decide_eq_false_iff_not, not_not]; exact h), h]
        rfl
      · rw [List.filter_cons_of_pos (by simp only [ne_eq, decide_not, Bool.not_eq_true', decide_eq_false_iff_not]; exact h), List.flatten_cons]

/-- A subset consists of the frames asked for that exist, in the order asked. -/
theorem subset_frames (c : Cfg) (d : DS) (index : List (String × Nat × Option String)) (allow : Bool) (r : DS) (h : subset c d index allow = .ok r) :
    r.frames = (index.filterMap fun b => find d.frames b.1 b.2.1).filterMap (fun i => d.frames[i]?) ∧ (∀ s, s ∈ r.seqs ↔ s ∈ d.seqs ∧ ∃ f ∈ r.frames, f.seq = s.1) ∧ r.evalB = d.evalB := by
  unfold subset at h
  cases hb : getBatch d.frames (isFiltered c && allow) index with
  | error e =>
    rw [hb] at h
    cases h
  | ok is =>
    rw [hb] at h
    have h := (Except.ok.inj h).symm
    rw [getBatch_spec _ _ _ _ hb] at h
    subst h
    refine ⟨?_, fun s => keepSeqs_mem _ _ _, rfl⟩
    show pickIdx _ _ = _
    unfold pickIdx
    rw [List.filterMap_map]
    rfl

/-- A dataset that is only limited to subsets does not count as filtered: a missing frame is an error although missing frames are allowed. -/
theorem subsets_missing (c : Cfg) (hc : isFiltered c = false) (d : DS) (index : List (String × Nat × Option String)) (b : String × Nat × Option String) (hb : b ∈ index)
    (hn : find d.frames b.1 b.2.1 = none) : ∀ r, subset c d index true ≠ .ok r := by
  intro r h
  unfold subset at h
  rw [hc] at h
  cases hg : getBatch d.frames (false && true) index with
  | error e =>
    rw [hg] at h
    cases h
  | ok is => exact (getBatch_missing d.frames index).1 ⟨b, hb, hn⟩ is hg

theorem subsets_not_filtered : ∃ c : Cfg, c.subsets = ["train"] ∧ isFiltered c = false := ⟨⟨false, ["train"], true, [], [], [], 0, -1, 0⟩, rfl, by decide⟩

def fr (s : String) (n : Nat) (t : Option ℚ) (sub : String) : Frame := ⟨s, n, t, "", some sub, none⟩

/-- Evaluation batches of a subset still hold the indices of the dataset it was taken from. -/
theorem subset_stale : ∃ (c : Cfg) (d r : DS), d.evalB = some [[1]] ∧ subset c d [("a", 1, none)] true = .ok r ∧ r.evalB = some [[1]] ∧ r.frames[1]? = none := by
  refine ⟨⟨false, [], false, [], [], [], 0, -1, 0⟩, ⟨[fr "a" 0 none "train", fr "a" 1 none "train"], [("a", "cat")], some [[1]]⟩, ⟨[fr "a" 1 none "train"], [("a", "cat")], some [[1]]⟩, rfl, ?_, rfl, rfl⟩
  decide +kernel

/-! ### Joining -/

/-- Joining appends the frames: those of the first dataset keep their indices, those of the k-th other one are moved by the sizes of the datasets before it. -/
theorem join_frames (d : DS) (others : List DS) (r : DS) (h : join d others = some (.ok r)) :
    r.frames = d.frames ++ others.flatMap DS.frames ∧ (∀ (i : Nat) (f : Frame), d.frames[i]? = some f → r.frames[i]? = some f) ∧
      (∀ (o : DS) (rest : List DS), others = o :: rest → ∀ (j : Nat) (f : Frame), o.frames[j]? = some f → r.frames[d.frames.length + j]? = some f) := by
  have hf : r.frames = d.frames ++ others.flatMap DS.frames := by
    unfold join at h
    by_cases h0 : others = []
    · rw [if_pos h0] at h
      cases h
    · rw [if_neg h0] at h
      dsimp only at h
      split_ifs at h
      · rw [← Except.ok.inj (Option.some.inj h)]
      · rw [← Except.ok.inj (Option.some.inj h)]
      · cases Option.some.inj h
  refine ⟨hf, ?_, ?_⟩
  · intro i f hi
    rw [hf, List.getElem?_append_left (List.getElem?_eq_some_iff.mp hi).1, hi]
  · intro o rest ho j f hj
    subst ho
    rw [hf, List.getElem?_append_right (by omega), Nat.add_sub_cancel_left, List.flatMap_cons, List.getElem?_append_left (List.getElem?_eq_some_iff.mp hj).1, hj]

/-- Evaluation batches are appended as they are, although the frames of the other datasets have moved. -/
theorem join_eval (d o : DS) (a b : List (List Nat)) (ha : d.evalB = some a) (hb : o.evalB = some b) :
    ∃ r, join d [o] = some (.ok r) ∧ r.evalB = some (a ++ b) := by
  have h1 : ((d.evalB :: [o].map DS.evalB).all fun b => b = none) = false := by
    simp [ha]
  have h2 : ((d.evalB :: [o].map DS.evalB).all fun b => b ≠ none) = true := by
    simp [ha, hb]
  unfold join
  rw [if_neg (by simp)]
  dsimp only
  rw [if_neg (by rw [h1]; simp), if_pos h2]
  exact ⟨_, rfl, by simp [ha, hb]⟩

/-- So a batch of the second dataset refers to a frame of the first. -/
theorem join_wrong : ∃ (d o r : DS) (f : Frame), o.evalB = some [[0]] ∧ o.frames = [f] ∧ join d [o] = some (.ok r) ∧ r.evalB = some [[0], [0]] ∧ r.frames[0]? ≠ some f := by
  refine ⟨⟨[fr "a" 0 none "x"], [("a", "c")], some [[0]]⟩, ⟨[fr "b" 5 none "x"], [("b", "c")], some [[0]]⟩, ⟨[fr "a" 0 none "x", fr "b" 5 none "x"], [("a", "c"), ("b", "c")], some [[0], [0]]⟩,
    fr "b" 5 none "x", rfl, rfl, ?_, rfl, ?_⟩
  · decide +kernel
  · decide +kernel

/-- One dataset with and one without evaluation batches cannot be joined. -/
theorem join_mixed (d o : DS) (a : List (List Nat)) (ha : d.evalB = some a) (hb : o.evalB = none) : join d [o] = some (.error .value) := by
  unfold join
  rw [if_neg (by simp)]
  dsimp only
  rw [if_neg (by simp [ha]), if_neg (by simp [hb])]

/-! ### Frames in order -/

theorem le3_total : Std.Total le3 := ⟨fun a b => by
  unfold le3
  rcases lt_trichotomy a.1 b.1 with h | h | h
  · exact Or.inl (Or.inl h)
  · rcases lt_trichotomy a.2.1 b.2.1 with h' | h' | h'
    · exact Or.inl (Or.inr ⟨h, Or.inl h'⟩)
    · rcases Nat.le_total a.2.2 b.2.2 with h'' | h''
      · exact Or.inl (Or.inr ⟨h, Or.inr ⟨h', h''⟩⟩)
      · exact Or.inr (Or.inr ⟨h.symm, Or.inr ⟨h'.symm, h''⟩⟩)
    · exact Or.inr (Or.inr ⟨h.symm, Or.inl h'⟩)
  · exact Or.inr (Or.inl h)⟩

theorem le3_trans : IsTrans _ le3 := ⟨fun a b c h1 h2 => by
  unfold le3 at *
  rcases h1 with h1 | ⟨e1, h1⟩ <;> rcases h2 with h2 | ⟨e2, h2⟩
  · exact Or.inl (h1.trans h2)
  · exact Or.inl (e2 ▸ h1)
  · exact Or.inl (e1 ▸ h2)
  · refine Or.inr ⟨e1.trans e2, ?_⟩
    omega⟩

/-- Without a filter the frames of the sequence come once each, sorted by timestamp, then number, then index. -/
theorem inOrder_all (fs : List Frame) (s : String) (l : List (ℚ × Nat × Nat)) (h : inOrder fs s none = .ok l) :
    l.Pairwise le3 ∧ (l.map fun x => x.2.2).Perm (seqToIdx fs s) ∧ ∀ x ∈ l, ∃ f, fs[x.2.2]? = some f ∧ f.seq = s ∧ f.num = x.2.1 ∧ f.time.getD 0 = x.1 := by
  have hz : ∀ is : List Nat, (∀ i ∈ is, i < fs.length) →
      (List.zipWith (fun i (nt : Nat × Option ℚ) => (nt.2, nt.1, i)) is (numsTimes fs is none)).map (fun x => x.2.2) = is ∧
        ∀ x ∈ List.zipWith (fun i (nt : Nat × Option ℚ) => (nt.2, nt.1, i)) is (numsTimes fs is none), ∃ f, fs[x.2.2]? = some f ∧ f.num = x.2.1 ∧ f.time = x.1 := by
    intro is
    induction is with
    | nil => exact fun _ => ⟨rfl, fun x hx => (by cases hx)⟩
    | cons i is ih =>
      intro hi
      obtain ⟨h1, h2⟩ := ih fun j hj => hi j (List.mem_cons_of_mem _ hj)
      have hlt := hi i List.mem_cons_self
      have hn : numsTimes fs (i :: is) none = (fs[i].num, fs[i].time) :: numsTimes fs is none := by
        unfold numsTimes
        rw [List.filterMap_cons, List.getElem?_eq_getElem hlt]
        rfl
      rw [hn, List.zipWith_cons_cons]
      refine ⟨by rw [List.map_cons, h1], ?_⟩
      intro x hx
      rcases List.mem_cons.mp hx with rfl | hx
      · exact ⟨fs[i], List.getElem?_eq_getElem hlt, rfl, rfl⟩
      · exact h2 x hx
  obtain ⟨z1, z2⟩ := hz (seqToIdx fs s) (by
    intro i hi
    obtain ⟨f, h1, -⟩ := ((seqToIdx_spec fs s).1 i).mp hi
    exact (List.getElem?_eq_some_iff.mp h1).1)
  unfold inOrder at h
  dsimp only at h
  generalize List.zipWith (fun i (nt : Nat × Option ℚ) => (nt.2, nt.1, i)) (seqToIdx fs s) (numsTimes fs (seqToIdx fs s) none) = zs at *
  split_ifs at h
  have h := Except.ok.inj h
  subst h
  have hperm := List.perm_insertionSort le3 (zs.map fun x => (x.1.getD 0, x.2))
  have := le3_total
  have := le3_trans
  refine ⟨List.pairwise_insertionSort le3 _, ?_, ?_⟩
  · refine (hperm.map _).trans ?_
    rw [List.map_map]
    rw [← z1]
    exact List.Perm.refl _
  · intro x hx
    obtain ⟨y, hy, rfl⟩ := List.mem_map.mp (hperm.mem_iff.mp hx)
    obtain ⟨f, h1, h2, h3⟩ := z2 y hy
    have hmem : y.2.2 ∈ seqToIdx fs s := by
      rw [← z1]
      exact List.mem_map.mpr ⟨y, hy, rfl⟩
    obtain ⟨g, h4, h5⟩ := ((seqToIdx_spec fs s).1 _).mp hmem
    rw [h1] at h4
    exact ⟨f, h1, by rw [Option.some.inj h4]; exact h5, h2, by rw [h3]⟩

/-- With a filter the indices returned are the first ones of the sequence, as many as there are frames in the subsets. -/
theorem inOrder_filter (fs : List Frame) (s : String) (sub : List String) (l : List (ℚ × Nat × Nat)) (h : inOrder fs s (some sub) = .ok l) :
    (l.map fun x => x.2.2).Perm ((seqToIdx fs s).take (numsTimes fs (seqToIdx fs s) (some sub)).length) := by
  unfold inOrder at h
  dsimp only at h
  split_ifs at h
  have h := Except.ok.inj h
  subst h
  refine ((List.perm_insertionSort le3 _).map _).trans ?_
  rw [List.map_map]
  generalize seqToIdx fs s = is
  generalize numsTimes fs is (some sub) = ns
  have : ∀ (is : List Nat) (ns : List (Nat × Option ℚ)),
      (List.zipWith (fun i (nt : Nat × Option ℚ) => (nt.2, nt.1, i)) is ns).map ((fun x : ℚ × Nat × Nat => x.2.2) ∘ fun x : Option ℚ × Nat × Nat => (x.1.getD 0, x.2)) = is.take ns.length := by
    intro is
    induction is with
    | nil => simp
    | cons i is ih =>
      intro ns
      cases ns with
      | nil => simp
      | cons n ns =>
        rw [List.zipWith_cons_cons, List.map_cons, ih]
        rfl
  rw [this]

/-- So frames outside the subsets are returned: of an unknown and a known frame, the unknown one with the number of the known one. -/
theorem inOrder_wrong : inOrder [fr "a" 3 (some 1) "unknown", fr "a" 7 (some 2) "known"] "a" (some ["known"]) = .ok [(2, 7, 0)] := by decide +kernel

/-- Timestamps given for some frames of a sequence only cannot be sorted; they are not replaced by zero as documented. -/
theorem inOrder_none : inOrder [fr "a" 3 none "x", fr "a" 7 (some 2) "x"] "a" none = .error .type := by decide +kernel

/-! ### Examples -/

def cfg : Cfg := ⟨true, ["train"], true, [], [], ["c"], 0, 1, 0⟩
def frames : List Frame := [⟨"a", 0, none, "", some "train", some (some 5)⟩, ⟨"a", 1, none, "", some "train", some (some 9)⟩, ⟨"b", 0, none, "", some "train", some (some 1)⟩,
  ⟨"b", 1, none, "", some "test", some (some 8)⟩, ⟨"c", 0, none, "", some "train", some (some 8)⟩]

/-- One frame per sequence, the last of each: a mask of mass 1 is empty, b has no other frame in the subset, c is excluded. -/
example : (filterDb cfg (fun _ l => l.reverse) frames [("a", "x"), ("b", "x"), ("c", "y")]).toOption.map (fun r => (r.1.map fun f => (f.seq, f.num), r.2)) = some ([("a", 1)], [("a", "x")]) := by decide +kernel

example : find [fr "a" 3 none "x", fr "b" 3 none "x", fr "a" 3 none "y"] "a" 3 = some 2 := by decide +kernel

end P3D.JsonIndex
