/-
The dataset over a SQLite database (`implicitron/dataset/sql_dataset.py`): filters, index, look-ups, frames in order, evaluation batches.

Names (of sequences, categories, subsets, paths) are of any linearly ordered type.  A table is the list of its rows in the order in which queries without ORDER BY give them; custom SQL clauses are any conditions on rows.
Random sampling is any function with its documented property (`Samples`).
Not modelled: files, sessions, `FrameDataBuilder`, `preload_metadata` (copies the tables), `precompute_seq_to_idx`, ROWID of the nested query (taken as the order of the table).
-/
import Mathlib.Data.List.Nodup
import Mathlib.Data.List.Range
import Mathlib.Data.List.Sort
import Mathlib.Data.List.Dedup
import Mathlib.Algebra.Order.Ring.Rat

set_option linter.unusedSectionVars false

namespace P3D.SqlIndex

inductive Err
  | value
  | index
  | key
  | integrity
  | noResult
  | assertion
  deriving DecidableEq, Repr

variable {N : Type} [LinearOrder N]

/-! ### The code -/

/-- A row of the table of sequences (orm_types.py). -/
structure SeqA (N : Type) where
  name : N
  cat : N
  deriving DecidableEq

/-- A row of the table of frames (orm_types.py); `mass` is `none` for NULL. -/
structure Ann (N : Type) where
  seq : N
  frame : Int
  path : N
  ts : Option ℚ
  mass : Option Nat
  deriving DecidableEq

/-- A row of the dataset's index. -/
structure Row (N : Type) where
  seq : N
  frame : Int
  path : N
  subset : Option N
  deriving DecidableEq

/-- The database. -/
structure Db (N : Type) where
  seqs : List (SeqA N)
  anns : List (Ann N)

/-- The settings (sql_dataset.py:113-152); `lists` is the content of `subset_lists_file`. -/
structure Cfg (N : Type) where
  subsets : List N
  lists : Option (List (N × List (N × Int × N)))
  removeEmpty : Bool
  threshold : Nat
  pickCats : List N
  pickSeqs : List N
  excl : List N
  seqClause : Option (SeqA N → Bool)
  frameClause : Option (Ann N → Bool)
  limPerCat : Int
  limSeqs : Int
  limTo : Int
  nPer : Int

/-- The conditions on sequences (lines 483-494, 536-557). -/
def seqWhere (c : Cfg N) (s : SeqA N) : Bool :=
  (c.pickCats.isEmpty || decide (s.cat ∈ c.pickCats)) && (c.pickSeqs.isEmpty || decide (s.name ∈ c.pickSeqs))
    && (c.excl.isEmpty || decide (s.name ∉ c.excl)) && (c.seqClause.elim true fun p => p s)

/-- `row_number() over (partition by category) <= k` (lines 500-513); `seen` are the categories of the rows before. -/
def perCat (k : Nat) : List N → List (SeqA N) → List (SeqA N)
  | _, [] => []
  | seen, s :: l => if seen.count s.cat < k then s :: perCat k (s.cat :: seen) l else perCat k (s.cat :: seen) l

/-- LIMIT n when n > 0. -/
def limited {α : Type} (n : Int) (l : List α) : List α := if 0 < n then l.take n.toNat else l

/-- Are sequences filtered at all (lines 522-528)? -/
def seqFilterOn (c : Cfg N) : Bool :=
  !c.pickCats.isEmpty || !c.pickSeqs.isEmpty || !c.excl.isEmpty || c.seqClause.isSome || decide (0 < c.limSeqs) || decide (0 < c.limPerCat)

/-- The sequences of the query (lines 496-520). -/
def seqQuery (c : Cfg N) (db : Db N) : List (SeqA N) :=
  limited c.limSeqs (if 0 < c.limPerCat then perCat c.limPerCat.toNat [] (db.seqs.filter (seqWhere c)) else db.seqs.filter (seqWhere c))

/-- `_get_filtered_sequences_if_any` (lines 476-534). -/
def filterSeqs (c : Cfg N) (db : Db N) : Option (List N) :=
  if seqFilterOn c then some ((seqQuery c db).map SeqA.name) else none

/-- Is a sequence kept by the list (None keeps all)? -/
def keptIn : Option (List N) → N → Bool
  | none, _ => true
  | some l, n => decide (n ∈ l)

/-- `_mask_mass IS NULL OR _mask_mass != 0` (lines 704-709). -/
def massOk (a : Ann N) : Bool := a.mass != some 0

/-- The conditions on frames (lines 693-713). -/
def frameWhere (c : Cfg N) (a : Ann N) : Bool := (!c.removeEmpty || massOk a) && (c.frameClause.elim true fun p => p a)

/-- The index row of an annotation, with the subset NULL (lines 686-691). -/
def toRow (a : Ann N) : Row N := ⟨a.seq, a.frame, a.path, none⟩

/-- Order by sequence name, frame number. -/
def rowLe (r s : Row N) : Prop := r.seq < s.seq ∨ (r.seq = s.seq ∧ r.frame ≤ s.frame)

instance : DecidableRel (rowLe (N := N)) := fun _ _ => inferInstanceAs (Decidable (_ ∨ _))

/-- `limit_to` (lines 718-723, and 643-645). -/
def limitRows (n : Int) (l : List (Row N)) : List (Row N) := if 0 < n then (l.insertionSort rowLe).take n.toNat else l

/-- `_build_index_from_db` (lines 684-729). -/
def fromDb (c : Cfg N) (db : Db N) : List (Row N) :=
  limitRows c.limTo ((db.anns.filter fun a => keptIn (filterSeqs c db) a.seq && frameWhere c a).map toRow)

/-- `_load_subsets_from_json` (lines 559-576). -/
def loadLists (ls : List (N × List (N × Int × N))) : List N → Except Err (List (Row N))
  | [] => .ok []
  | s :: ss =>
    match ls.lookup s with
    | none => .error .key
    | some l => (loadLists ls ss).map fun r => (l.map fun x => ⟨x.1, x.2.1, x.2.2, some s⟩) ++ r

/-- The key of an index row. -/
def Row.key (r : Row N) : N × Int := (r.seq, r.frame)

/-- The key of an annotation. -/
def Ann.key (a : Ann N) : N × Int := (a.seq, a.frame)

/-- `_pick_frames_by_criteria` (lines 658-682): the index is stored in a table with the key as primary key and joined with the annotations. -/
def pickFrames (db : Db N) (p : Ann N → Bool) (l : List (Row N)) : Except Err (List (Row N)) :=
  if (l.map Row.key).Nodup then .ok (l.filter fun r => db.anns.any fun a => decide (a.key = r.key) && p a) else .error .integrity

/-- Rows whose annotation has mass zero are dropped (lines 617-627). -/
def dropEmpty (db : Db N) (l : List (Row N)) : List (Row N) :=
  l.filter fun r => !(db.anns.any fun a => decide (a.key = r.key) && (a.mass == some 0))

/-- The frame filters of listed subsets (lines 604-639): the way of removing empty masks depends on the size. -/
def frameFilters (c : Cfg N) (db : Db N) (l : List (Row N)) : Except Err (List (Row N)) :=
  if c.removeEmpty && decide (c.threshold < l.length) then
    if c.frameClause.isSome then pickFrames db (fun a => c.frameClause.elim true fun p => p a) (dropEmpty db l) else .ok (dropEmpty db l)
  else if c.removeEmpty || c.frameClause.isSome then pickFrames db (frameWhere c) l
  else .ok l

/-- `_build_index_from_subset_lists` (lines 590-656). -/
def fromLists (c : Cfg N) (db : Db N) : Except Err (List (Row N)) :=
  match c.lists with
  | none => .error .value
  | some ls =>
    match loadLists ls c.subsets with
    | .error e => .error e
    | .ok rows => (frameFilters c db (rows.filter fun r => keptIn (filterSeqs c db) r.seq)).map (limitRows c.limTo)

/-- `_stratified_sample_index` (lines 779-792): a sample of each sequence, by name. -/
def stratify (samp : List (Row N) → Nat → List (Row N)) (n : Nat) (l : List (Row N)) : List (Row N) :=
  ((l.map Row.seq).dedup.insertionSort (· ≤ ·)).flatMap fun s =>
    samp (l.filter fun r => r.seq = s) (min (l.filter fun r => r.seq = s).length n)

/-- What pandas' `sample(k)` does: k rows at different places. -/
def Samples (samp : List (Row N) → Nat → List (Row N)) : Prop :=
  ∀ l k, k ≤ l.length → ∃ p : List (Row N), p.Perm l ∧ samp l k = p.take k

/-- The index before sampling (lines 185-191). -/
def base (c : Cfg N) (db : Db N) : Except Err (List (Row N)) := if c.subsets.isEmpty then .ok (fromDb c db) else fromLists c db

/-- Sampling if asked for, and the check for emptiness (lines 193-197). -/
def finish (samp : List (Row N) → Nat → List (Row N)) (c : Cfg N) (l : List (Row N)) : Except Err (List (Row N)) :=
  if (if 0 ≤ c.nPer then stratify samp c.nPer.toNat l else l).isEmpty then .error .value
  else .ok (if 0 ≤ c.nPer then stratify samp c.nPer.toNat l else l)

/-- The index of the dataset (`__post_init__`, lines 183-199). -/
def build (samp : List (Row N) → Nat → List (Row N)) (c : Cfg N) (db : Db N) : Except Err (List (Row N)) :=
  match base c db with
  | .error e => .error e
  | .ok l => finish samp c l

/-- `dataset[seq, frame]` or `dataset[seq, frame, path]` (lines 263-300) up to the annotation found.  With two rows of the key, `.loc` is a series, whose truth value is an error. -/
def getKey (db : Db N) (l : List (Row N)) (k : N × Int) (rest : Option N) : Except Err (Ann N) :=
  match l.filter fun r => r.key = k with
  | [] => .error .index
  | [r] =>
    if rest.isSome ∧ rest ≠ some r.path then .error .index
    else match db.anns.find? fun a => a.key = k with
      | none => .error .noResult
      | some a => if a.path = r.path then .ok a else .error .assertion
  | _ :: _ :: _ =>
    if rest.isSome then .error .value
    else match db.anns.find? fun a => a.key = k with
      | none => .error .noResult
      | some _ => .error .value

/-- `dataset[i]` (lines 257-261): only the upper bound is tested, negative numbers count from the end. -/
def getInt (db : Db N) (l : List (Row N)) (i : Int) : Except Err (Ann N) :=
  if (l.length : Int) ≤ i then .error .index
  else match (if 0 ≤ i then l[i.toNat]? else if -(l.length : Int) ≤ i then l[(l.length + i).toNat]? else none) with
    | none => .error .index
    | some r => getKey db l r.key none

/-- Times (NULL as 0) and numbers of the frames of a sequence, in the order of the query (lines 818-833). -/
def tsQuery (db : Db N) (s : N) (frames : List Int) : List (ℚ × Int) :=
  (db.anns.filter fun a => decide (a.seq = s) && decide (a.frame ∈ frames)).map fun a => (a.ts.getD 0, a.frame)

/-- Does a row pass the subset filter (lines 805-809)? -/
def inSubset : Option (List N) → Row N → Bool
  | none, _ => true
  | some f, r => r.subset.elim false fun s => decide (s ∈ f)

/-- The places of a sequence in the index, with the subset filter (lines 385-391, 804-810). -/
def places (l : List (Row N)) (s : N) (f : Option (List N)) : List (Nat × Row N) :=
  (l.zipIdx.map fun x => (x.2, x.1)).filter fun x => decide (x.2.seq = s) && inSubset f x.2

/-- The triples of `sequence_frames_in_order` (lines 385-398): the rows of the query side by side with the places. -/
def triples (q : List (ℚ × Int)) (ps : List (Nat × Row N)) : List (ℚ × Int × Nat) :=
  (q.zip ps).map fun x => (x.1.1, x.1.2, x.2.1)

/-- `sequence_frames_in_order` (lines 364-398, 797-851). -/
def framesInOrder (db : Db N) (l : List (Row N)) (s : N) (f : Option (List N)) : Except Err (List (ℚ × Int × Nat)) :=
  if ∀ r ∈ l, r.seq ≠ s then .error .key
  else if (tsQuery db s ((places l s f).map fun x => x.2.frame)).length ≠ (places l s f).length then .error .value
  else .ok (triples (tsQuery db s ((places l s f).map fun x => x.2.frame)) (places l s f))

/-- `get_frame_numbers_and_timestamps` (lines 323-361) of rows: `itertuples()` puts the row number of the result first. -/
def frameNumbers (db : Db N) (rs : List (Row N)) : Except Err (List (Nat × ℚ × Int)) :=
  match rs with
  | [] => .ok []
  | r :: rs =>
    if ∃ r' ∈ rs, r'.seq ≠ r.seq then .error .value
    else if (tsQuery db r.seq ((r :: rs).map Row.frame)).length ≠ (r :: rs).length then .error .value
    else .ok ((tsQuery db r.seq ((r :: rs).map Row.frame)).zipIdx.map fun x => (x.2, x.1.1, x.1.2))

/-- The sequences of the dataset of a category (`category_to_sequence_names`, lines 310-321); none is a missing key. -/
def catSeqs (db : Db N) (l : List (Row N)) (cat : N) : Option (List N) :=
  match (db.seqs.filter fun s => decide (s.cat = cat) && decide (s.name ∈ l.map Row.seq)).map SeqA.name with
  | [] => none
  | ns => some ns

/-- The sequences for which evaluation batches are picked (lines 757-763). -/
def evalPick (c : Cfg N) (db : Db N) (l : List (Row N)) : Option (List N) :=
  (c.pickCats.mapM (catSeqs db l)).map fun x => c.pickSeqs ++ x.flatten

/-- Filtering batches by the sequence of the first frame; `b[0]` of an empty batch is an error. -/
def byFirst (p : N → Bool) (bs : List (List (N × Int))) : Except Err (List (List (N × Int))) :=
  if [] ∈ bs then .error .index else .ok (bs.filter fun b => (b.head?.map fun x => p x.1) = some true)

/-- Picking (lines 765-770). -/
def evalPicked (ps : List N) (bs : List (List (N × Int))) : Except Err (List (List (N × Int))) :=
  if ps.isEmpty then .ok bs else byFirst (fun n => decide (n ∈ ps)) bs

/-- Excluding (lines 772-778). -/
def evalExcl (ex : List N) (bs : List (List (N × Int))) : Except Err (List (List (N × Int))) :=
  if ex.isEmpty then .ok bs else byFirst (fun n => decide (n ∉ ex)) bs

/-- `_load_filter_eval_batches` (lines 736-777). -/
def evalBatches (c : Cfg N) (db : Db N) (l : List (Row N)) (bs : List (List (N × Int))) : Except Err (List (List (N × Int))) :=
  match evalPick c db l with
  | none => .error .key
  | some ps =>
    match evalPicked ps bs with
    | .error e => .error e
    | .ok bs' => evalExcl c.excl bs'

/-- `is_filtered` (lines 432-451). -/
def isFiltered (c : Cfg N) : Bool :=
  c.removeEmpty || decide (0 < c.limTo) || decide (0 < c.limSeqs) || decide (0 < c.limPerCat) || !c.pickSeqs.isEmpty
    || c.seqClause.isSome || !c.excl.isEmpty || !c.pickCats.isEmpty || decide (0 < c.nPer)

/-! ### What a user relies on -/

/-- A sequence meets the conditions set. -/
def SeqOk (c : Cfg N) (s : SeqA N) : Prop :=
  (c.pickCats ≠ [] → s.cat ∈ c.pickCats) ∧ (c.pickSeqs ≠ [] → s.name ∈ c.pickSeqs) ∧ s.name ∉ c.excl ∧ ∀ p, c.seqClause = some p → p s = true

/-- A frame meets the conditions set. -/
def FrameOk (c : Cfg N) (a : Ann N) : Prop :=
  (c.removeEmpty = true → a.mass ≠ some 0) ∧ ∀ p, c.frameClause = some p → p a = true

/-- The conditions of the query are the documented ones. -/
theorem seqWhere_iff (c : Cfg N) (s : SeqA N) : seqWhere c s = true ↔ SeqOk c s := by
  unfold seqWhere SeqOk
  cases hc : c.seqClause <;> simp [List.isEmpty_iff, or_iff_not_imp_left, and_assoc]
  · intro _ _ e
    rw [e]
    simp
  · intro _ _ _ e
    rw [e]
    simp

theorem frameWhere_iff (c : Cfg N) (a : Ann N) : frameWhere c a = true ↔ FrameOk c a := by
  unfold frameWhere FrameOk massOk
  cases hc : c.frameClause <;> cases hr : c.removeEmpty <;> simp

/-- The limit per category: of each category the first k sequences. -/
theorem perCat_filter (k : Nat) (c : N) : ∀ (l : List (SeqA N)) (seen : List N),
    (perCat k seen l).filter (fun s => s.cat = c) = (l.filter fun s => s.cat = c).take (k - seen.count c)
  | [], seen => by simp [perCat]
  | s :: l, seen => by
    have ih := perCat_filter k c l (s.cat :: seen)
    unfold perCat
    by_cases hs : s.cat = c
    · subst hs
      rw [List.count_cons_self] at ih
      split_ifs with h
      · obtain ⟨m, hm⟩ : ∃ m, k - seen.count s.cat = m + 1 := ⟨k - seen.count s.cat - 1, by omega⟩
        have h2 : k - (seen.count s.cat + 1) = m := by omega
        rw [h2] at ih
        simp [ih, hm]
      · have h1 : k - seen.count s.cat = 0 := by omega
        have h2 : k - (seen.count s.cat + 1) = 0 := by omega
        rw [ih, h1, h2]
        simp
    · rw [List.count_cons_of_ne hs] at ih
      split_ifs with h <;> simp [hs, ih]

theorem perCat_sublist (k : Nat) : ∀ (l : List (SeqA N)) (seen : List N), (perCat k seen l).Sublist l
  | [], _ => by simp [perCat]
  | s :: l, seen => by
    unfold perCat
    split_ifs
    · exact (perCat_sublist k l _).cons_cons s
    · exact (perCat_sublist k l _).cons s

example : perCat 1 [] [⟨1, 7⟩, ⟨2, 8⟩, ⟨3, 7⟩] = ([⟨1, 7⟩, ⟨2, 8⟩] : List (SeqA ℕ)) := by decide +kernel

/-- Sequences kept without limits: exactly those that meet the conditions. -/
theorem filterSeqs_spec (c : Cfg N) (db : Db N) (h1 : c.limSeqs ≤ 0) (h2 : c.limPerCat ≤ 0) (n : N) (hn : ∃ s ∈ db.seqs, s.name = n) :
    keptIn (filterSeqs c db) n = true ↔ ∃ s ∈ db.seqs, s.name = n ∧ SeqOk c s := by
  have h1' : ¬ 0 < c.limSeqs := by omega
  have h2' : ¬ 0 < c.limPerCat := by omega
  unfold filterSeqs
  split_ifs with h
  · rw [show keptIn (some ((seqQuery c db).map SeqA.name)) n = decide (n ∈ (seqQuery c db).map SeqA.name) from rfl, decide_eq_true_iff]
    simp only [List.mem_map, seqQuery, limited, h1', h2', if_false, List.mem_filter, seqWhere_iff]
    exact ⟨fun ⟨s, ⟨a, b⟩, e⟩ => ⟨s, a, e, b⟩, fun ⟨s, a, e, b⟩ => ⟨s, ⟨a, b⟩, e⟩⟩
  · simp only [keptIn, true_iff]
    obtain ⟨s, hs, e⟩ := hn
    simp only [seqFilterOn, Bool.or_eq_true, Bool.not_eq_true', List.isEmpty_eq_false_iff, decide_eq_true_eq, not_or, h1', h2', ne_eq, not_not] at h
    obtain ⟨⟨⟨⟨⟨a, b⟩, d⟩, e'⟩, _⟩, _⟩ := h
    refine ⟨s, hs, e, fun hne => absurd a hne, fun hne => absurd b hne, by rw [d]; simp, fun p hp => ?_⟩
    rw [hp] at e'
    simp at e'

/-- With limits: only sequences that meet the conditions, at most the limit in all and at most the limit of each category. -/
theorem seqQuery_limits (c : Cfg N) (db : Db N) :
    (∀ s ∈ seqQuery c db, s ∈ db.seqs ∧ SeqOk c s) ∧ (0 < c.limSeqs → (seqQuery c db).length ≤ c.limSeqs.toNat)
      ∧ ∀ cat, 0 < c.limPerCat → ((seqQuery c db).filter fun s => s.cat = cat).length ≤ c.limPerCat.toNat := by
  have hsub : (seqQuery c db).Sublist (if 0 < c.limPerCat then perCat c.limPerCat.toNat [] (db.seqs.filter (seqWhere c)) else db.seqs.filter (seqWhere c)) := by
    unfold seqQuery limited
    split_ifs
    all_goals first | exact List.take_sublist _ _ | exact List.Sublist.refl _
  refine ⟨fun s hs => ?_, fun h => ?_, fun cat h => ?_⟩
  · have := hsub.subset hs
    have h3 : s ∈ db.seqs.filter (seqWhere c) := by
      split_ifs at this
      · exact (perCat_sublist _ _ _).subset this
      · exact this
    rw [List.mem_filter, seqWhere_iff] at h3
    exact h3
  · unfold seqQuery limited
    rw [if_pos h, List.length_take]
    exact Nat.min_le_left _ _
  · rw [if_pos h] at hsub
    refine (hsub.filter _).length_le.trans ?_
    rw [perCat_filter, List.length_take]
    simp

/-- With both limits off or on, the first sequences are kept: a sequence dropped by the total limit comes after the kept ones. -/
theorem seqQuery_first (c : Cfg N) (db : Db N) (h : 0 < c.limSeqs) (h2 : c.limPerCat ≤ 0) :
    seqQuery c db = (db.seqs.filter (seqWhere c)).take c.limSeqs.toNat := by
  have : ¬ 0 < c.limPerCat := by omega
  simp [seqQuery, limited, h, this]

/-- Without frame limits the index from the database is exactly the frames that meet the conditions, in the order of the table. -/
theorem fromDb_spec (c : Cfg N) (db : Db N) (h : c.limTo ≤ 0) (r : Row N) :
    r ∈ fromDb c db ↔ ∃ a ∈ db.anns, keptIn (filterSeqs c db) a.seq = true ∧ FrameOk c a ∧ r = ⟨a.seq, a.frame, a.path, none⟩ := by
  have h' : ¬ 0 < c.limTo := by omega
  simp only [fromDb, limitRows, h', if_false, List.mem_map, List.mem_filter, Bool.and_eq_true, frameWhere_iff, toRow]
  exact ⟨fun ⟨a, ⟨x, y, z⟩, e⟩ => ⟨a, x, y, z, e.symm⟩, fun ⟨a, x, y, z, e⟩ => ⟨a, ⟨x, y, z⟩, e.symm⟩⟩

instance : Std.Total (rowLe (N := N)) := ⟨fun a b => by
  unfold rowLe
  rcases lt_trichotomy a.seq b.seq with h | h | h
  · exact .inl (.inl h)
  · rcases le_total a.frame b.frame with h2 | h2
    · exact .inl (.inr ⟨h, h2⟩)
    · exact .inr (.inr ⟨h.symm, h2⟩)
  · exact .inr (.inl h)⟩

instance : IsTrans (Row N) rowLe := ⟨fun a b d => by
  unfold rowLe
  rintro (h | ⟨h, h'⟩) (g | ⟨g, g'⟩)
  · exact .inl (h.trans g)
  · exact .inl (g ▸ h)
  · exact .inl (h ▸ g)
  · exact .inr ⟨h.trans g, h'.trans g'⟩⟩

/-- A frame limit keeps the first frames by sequence and number: as many as asked for, each before every dropped one. -/
theorem limitRows_spec (n : Int) (hn : 0 < n) (l : List (Row N)) :
    (limitRows n l).length = min n.toNat l.length ∧ ∃ dropped, (limitRows n l ++ dropped).Perm l ∧ ∀ r ∈ limitRows n l, ∀ d ∈ dropped, rowLe r d := by
  unfold limitRows
  rw [if_pos hn]
  refine ⟨by simp, (l.insertionSort rowLe).drop n.toNat, ?_, ?_⟩
  · rw [List.take_append_drop]
    exact List.perm_insertionSort _ _
  · have hp := List.pairwise_insertionSort (rowLe (N := N)) l
    rw [← List.take_append_drop n.toNat (l.insertionSort rowLe), List.pairwise_append] at hp
    exact hp.2.2

/-! ### Listed subsets -/

theorem loadLists_mem (ls : List (N × List (N × Int × N))) : ∀ (ss : List N) {rows : List (Row N)}, loadLists ls ss = .ok rows → ∀ r : Row N,
    r ∈ rows ↔ ∃ s ∈ ss, ∃ l, ls.lookup s = some l ∧ (r.seq, r.frame, r.path) ∈ l ∧ r.subset = some s
  | [], rows, h, r => by
    cases Except.ok.inj h
    simp
  | s :: ss, rows, h, r => by
    unfold loadLists at h
    cases hl : ls.lookup s with
    | none => rw [hl] at h; cases h
    | some l =>
      rw [hl] at h
      dsimp only at h
      cases ht : loadLists ls ss with
      | error e => rw [ht] at h; cases h
      | ok rs =>
        rw [ht] at h
        have := Except.ok.inj h
        dsimp only at this
        subst this
        rw [List.mem_append, loadLists_mem ls ss ht r]
        constructor
        · rintro (hm | ⟨s', hs', l', h1, h2, h3⟩)
          · obtain ⟨x, hx, e⟩ := List.mem_map.1 hm
            subst e
            exact ⟨s, List.mem_cons_self, l, hl, hx, rfl⟩
          · exact ⟨s', List.mem_cons_of_mem _ hs', l', h1, h2, h3⟩
        · rintro ⟨s', hs', l', h1, h2, h3⟩
          rcases List.mem_cons.1 hs' with rfl | hs'
          · rw [hl] at h1
            cases h1
            refine .inl (List.mem_map.2 ⟨_, h2, ?_⟩)
            cases r
            simp only at h3
            simp [h3]
          · exact .inr ⟨s', hs', l', h1, h2, h3⟩

/-- A missing subset is a KeyError. -/
theorem loadLists_error (ls : List (N × List (N × Int × N))) : ∀ ss : List N, (∃ s ∈ ss, ls.lookup s = none) → loadLists ls ss = .error .key
  | [], h => by obtain ⟨s, hs, _⟩ := h; cases hs
  | s :: ss, h => by
    unfold loadLists
    cases hl : ls.lookup s with
    | none => rfl
    | some l =>
      obtain ⟨s', hs', hn⟩ := h
      rcases List.mem_cons.1 hs' with rfl | hs'
      · rw [hl] at hn; cases hn
      · dsimp only
        rw [loadLists_error ls ss ⟨s', hs', hn⟩]
        rfl

/-- The annotation of a key is unique. -/
def Keyed (db : Db N) : Prop := (db.anns.map Ann.key).Nodup

theorem keyed_unique {db : Db N} (hk : Keyed db) {a b : Ann N} (ha : a ∈ db.anns) (hb : b ∈ db.anns) (h : a.key = b.key) : a = b :=
  List.inj_on_of_nodup_map hk ha hb h

/-- Every listed entry is an annotated frame, as the documentation asks. -/
def Listed (db : Db N) (l : List (Row N)) : Prop := ∀ r ∈ l, ∃ a ∈ db.anns, a.key = r.key

/-- Entries listed once, all of them annotated: whichever way the empty masks are removed, exactly the rows whose annotation meets the conditions are kept, in order. -/
theorem frameFilters_spec (c : Cfg N) (db : Db N) (l : List (Row N)) (hk : Keyed db) (hl : Listed db l) (hn : (l.map Row.key).Nodup) :
    ∃ rs, frameFilters c db l = .ok rs ∧ rs.Sublist l ∧ ∀ r ∈ l, r ∈ rs ↔ ∃ a ∈ db.anns, a.key = r.key ∧ FrameOk c a := by
  have hdrop : ∀ r ∈ l, r ∈ dropEmpty db l ↔ ∃ a ∈ db.anns, a.key = r.key ∧ a.mass ≠ some 0 := by
    intro r hr
    obtain ⟨a, ha, hak⟩ := hl r hr
    unfold dropEmpty
    rw [List.mem_filter]
    constructor
    · rintro ⟨_, h⟩
      refine ⟨a, ha, hak, fun hm => ?_⟩
      have : (db.anns.any fun a => decide (a.key = r.key) && (a.mass == some 0)) = true :=
        List.any_eq_true.2 ⟨a, ha, by simp [hak, hm]⟩
      rw [this] at h
      cases h
    · rintro ⟨b, hb, hbk, hbm⟩
      refine ⟨hr, ?_⟩
      rw [Bool.not_eq_true', List.any_eq_false]
      intro d hd hc
      simp only [Bool.and_eq_true, decide_eq_true_eq, beq_iff_eq] at hc
      have := keyed_unique hk hd hb (hc.1.trans hbk.symm)
      subst this
      exact hbm hc.2
  unfold frameFilters
  split_ifs with h1 h2 h3
  · simp only [Bool.and_eq_true, decide_eq_true_eq] at h1
    have hn' : ((dropEmpty db l).map Row.key).Nodup := hn.sublist (List.Sublist.map _ List.filter_sublist)
    unfold pickFrames
    rw [if_pos hn']
    refine ⟨_, rfl, List.filter_sublist.trans List.filter_sublist, fun r hr => ?_⟩
    rw [List.mem_filter, hdrop r hr, List.any_eq_true]
    constructor
    · rintro ⟨⟨b, hb, hbk, hbm⟩, a, ha, hh⟩
      simp only [Bool.and_eq_true, decide_eq_true_eq] at hh
      have := keyed_unique hk ha hb (hh.1.trans hbk.symm)
      subst this
      refine ⟨a, ha, hbk, fun _ => hbm, fun p hp => ?_⟩
      have h4 := hh.2
      rw [hp] at h4
      exact h4
    · rintro ⟨a, ha, hak, hok⟩
      refine ⟨⟨a, ha, hak, hok.1 h1.1⟩, a, ha, ?_⟩
      simp only [Bool.and_eq_true, decide_eq_true_eq]
      refine ⟨hak, ?_⟩
      cases hp : c.frameClause with
      | none => rfl
      | some p => exact hok.2 p hp
  · simp only [Bool.and_eq_true, decide_eq_true_eq] at h1
    refine ⟨_, rfl, List.filter_sublist, fun r hr => ?_⟩
    rw [hdrop r hr]
    have hcn : c.frameClause = none := by simpa using h2
    constructor
    · rintro ⟨a, ha, hak, hm⟩
      exact ⟨a, ha, hak, fun _ => hm, fun p hp => by rw [hcn] at hp; cases hp⟩
    · rintro ⟨a, ha, hak, hok⟩
      exact ⟨a, ha, hak, hok.1 h1.1⟩
  · unfold pickFrames
    rw [if_pos hn]
    refine ⟨_, rfl, List.filter_sublist, fun r hr => ?_⟩
    rw [List.mem_filter, List.any_eq_true]
    simp only [Bool.and_eq_true, decide_eq_true_eq, frameWhere_iff]
    exact ⟨fun ⟨_, a, ha, hh⟩ => ⟨a, ha, hh⟩, fun ⟨a, ha, hh⟩ => ⟨hr, a, ha, hh⟩⟩
  · refine ⟨_, rfl, List.Sublist.refl _, fun r hr => ?_⟩
    obtain ⟨a, ha, hak⟩ := hl r hr
    simp only [Bool.or_eq_true, not_or, Bool.not_eq_true, Option.isSome_eq_false_iff, Option.isNone_iff_eq_none] at h3
    refine ⟨fun _ => ⟨a, ha, hak, fun h => ?_, fun p hp => ?_⟩, fun _ => hr⟩
    · rw [h3.1] at h; cases h
    · rw [h3.2] at hp; cases hp

/-- An entry without annotation: kept in large indices and removed in small ones. -/
theorem unannotated (c : Cfg N) (db : Db N) (l : List (Row N)) (hn : (l.map Row.key).Nodup) (hr : c.removeEmpty = true) (hc : c.frameClause = none)
    (r : Row N) (hm : r ∈ l) (hu : ∀ a ∈ db.anns, a.key ≠ r.key) :
    ∃ rs, frameFilters c db l = .ok rs ∧ (r ∈ rs ↔ c.threshold < l.length) := by
  by_cases ht : c.threshold < l.length
  · refine ⟨dropEmpty db l, by simp [frameFilters, hr, ht, hc], ?_⟩
    simp only [ht, iff_true]
    unfold dropEmpty
    rw [List.mem_filter]
    refine ⟨hm, ?_⟩
    rw [Bool.not_eq_true', List.any_eq_false]
    intro a ha
    simp [hu a ha]
  · refine ⟨l.filter fun r => db.anns.any fun a => decide (a.key = r.key) && frameWhere c a, by simp [frameFilters, hr, ht, pickFrames, hn], ?_⟩
    simp only [ht, iff_false]
    rw [List.mem_filter]
    rintro ⟨_, h⟩
    obtain ⟨a, ha, hh⟩ := List.any_eq_true.1 h
    simp [hu a ha] at hh

/-- A frame listed twice (say in two of the subsets) is an IntegrityError, whenever the annotations are queried for conditions. -/
theorem listed_twice (c : Cfg N) (db : Db N) (l : List (Row N)) (hn : ¬ (l.map Row.key).Nodup) (hr : c.removeEmpty = true) (ht : l.length ≤ c.threshold) :
    frameFilters c db l = .error .integrity := by
  have ht' : ¬ c.threshold < l.length := by omega
  simp [frameFilters, hr, ht', pickFrames, hn]

/-! ### Sampling -/

theorem samp_sub {samp : List (Row N) → Nat → List (Row N)} (hs : Samples samp) (l : List (Row N)) (k : Nat) (hk : k ≤ l.length) :
    (samp l k).length = k ∧ ∀ r ∈ samp l k, r ∈ l := by
  obtain ⟨p, hp, e⟩ := hs l k hk
  rw [e]
  refine ⟨?_, fun r hr => hp.subset (List.mem_of_mem_take hr)⟩
  rw [List.length_take, hp.length_eq]
  exact min_eq_left hk

theorem flatMap_filter_one {samp : List (Row N) → List (Row N)} (g : N → List (Row N)) (hg : ∀ s, ∀ r ∈ g s, r.seq = s) (s : N) :
    ∀ (ns : List N), ns.Nodup → (ns.flatMap g).filter (fun r => r.seq = s) = if s ∈ ns then g s else []
  | [], _ => by simp
  | n :: ns, h => by
    rw [List.nodup_cons] at h
    rw [List.flatMap_cons, List.filter_append, flatMap_filter_one (samp := samp) g hg s ns h.2]
    by_cases hs : s = n
    · subst hs
      have h1 : (g s).filter (fun r => r.seq = s) = g s := List.filter_eq_self.2 fun r hr => by simp [hg s r hr]
      simp [h1, h.1]
    · have h1 : (g n).filter (fun r => r.seq = s) = [] := by
        rw [List.filter_eq_nil_iff]
        intro r hr
        simp [hg n r hr, Ne.symm hs]
      simp [h1, hs]

/-- Sampling: of every sequence the frames if there are at most n, else n of them; and no others. -/
theorem stratify_spec {samp : List (Row N) → Nat → List (Row N)} (hs : Samples samp) (n : Nat) (l : List (Row N)) :
    (∀ r ∈ stratify samp n l, r ∈ l) ∧ ∀ s, ((stratify samp n l).filter fun r => r.seq = s).length = min (l.filter fun r => r.seq = s).length n := by
  have hin : ∀ s, ∀ r ∈ samp (l.filter fun r => r.seq = s) (min (l.filter fun r => r.seq = s).length n), r ∈ l ∧ r.seq = s := by
    intro s r hr
    have := (samp_sub hs _ _ (Nat.min_le_left _ _)).2 r hr
    rw [List.mem_filter] at this
    exact ⟨this.1, by simpa using this.2⟩
  refine ⟨fun r hr => ?_, fun s => ?_⟩
  · unfold stratify at hr
    obtain ⟨s, _, h⟩ := List.mem_flatMap.1 hr
    exact (hin s r h).1
  · unfold stratify
    have hnd : ((l.map Row.seq).dedup.insertionSort (· ≤ ·)).Nodup :=
      (List.perm_insertionSort (· ≤ ·) _).nodup_iff.2 (List.nodup_dedup _)
    rw [flatMap_filter_one (samp := fun l => l) _ (fun s r hr => (hin s r hr).2) s _ hnd]
    have hmem : s ∈ (l.map Row.seq).dedup.insertionSort (· ≤ ·) ↔ s ∈ l.map Row.seq := by
      rw [List.mem_insertionSort, List.mem_dedup]
    split_ifs with h
    · exact (samp_sub hs _ _ (Nat.min_le_left _ _)).1
    · rw [hmem] at h
      have : (l.filter fun r => r.seq = s) = [] := by
        rw [List.filter_eq_nil_iff]
        intro r hr
        simp only [decide_eq_true_eq]
        intro e
        exact h (List.mem_map.2 ⟨r, hr, e⟩)
      rw [this]
      simp

/-- Zero frames per sequence, documented as no sampling, always is an error: no frames are left. -/
theorem nPer_zero {samp : List (Row N) → Nat → List (Row N)} (hs : Samples samp) (c : Cfg N) (h : c.nPer = 0) (l : List (Row N)) :
    finish samp c l = .error .value := by
  have he : stratify samp 0 l = [] := by
    rw [List.eq_nil_iff_forall_not_mem]
    intro r hr
    have h2 := (stratify_spec hs 0 l).2 r.seq
    rw [Nat.min_zero, List.length_eq_zero_iff, List.filter_eq_nil_iff] at h2
    exact h2 r hr (by simp)
  simp [finish, h, he]

/-- A dataset that is built is not empty, and has only frames of the index. -/
theorem build_ok {samp : List (Row N) → Nat → List (Row N)} (hs : Samples samp) (c : Cfg N) (db : Db N) {l : List (Row N)} (h : build samp c db = .ok l) :
    l ≠ [] ∧ ∃ l0, base c db = .ok l0 ∧ (∀ r ∈ l, r ∈ l0) ∧ (c.nPer < 0 → l = l0) := by
  unfold build at h
  cases hb : base c db with
  | error e => rw [hb] at h; cases h
  | ok l0 =>
    rw [hb] at h
    dsimp only at h
    unfold finish at h
    by_cases hn : 0 ≤ c.nPer
    · simp only [hn, if_true] at h
      split_ifs at h with h3
      cases Except.ok.inj h
      exact ⟨fun hh => h3 (by rw [hh]; rfl), l0, rfl, (stratify_spec hs _ l0).1, fun hn' => by omega⟩
    · simp only [hn, if_false] at h
      split_ifs at h with h3
      cases Except.ok.inj h
      exact ⟨fun hh => h3 (by rw [hh]; rfl), l, rfl, fun r hr => hr, fun _ => rfl⟩

/-! ### Look-ups -/

/-- The index has every frame once and agrees with the annotations. -/
def Consistent (db : Db N) (l : List (Row N)) : Prop :=
  (l.map Row.key).Nodup ∧ ∀ r ∈ l, ∃ a ∈ db.anns, a.key = r.key ∧ a.path = r.path

theorem filter_key {l : List (Row N)} (hn : (l.map Row.key).Nodup) {r : Row N} (hr : r ∈ l) : (l.filter fun x => x.key = r.key) = [r] := by
  induction l with
  | nil => cases hr
  | cons x l ih =>
    rw [List.map_cons, List.nodup_cons] at hn
    rcases List.mem_cons.1 hr with rfl | hr
    · have : (l.filter fun x => x.key = r.key) = [] := by
        rw [List.filter_eq_nil_iff]
        intro y hy
        simp only [decide_eq_true_eq]
        intro e
        exact hn.1 (List.mem_map.2 ⟨y, hy, e⟩)
      simp [this]
    · have hne : x.key ≠ r.key := fun e => hn.1 (List.mem_map.2 ⟨r, hr, e.symm⟩)
      simp [hne, ih hn.2 hr]

/-- In a consistent index a key look-up gives that frame's annotation, whether the path is given (rightly) or not. -/
theorem getKey_spec {db : Db N} {l : List (Row N)} (hc : Consistent db l) (hk : Keyed db) {r : Row N} (hr : r ∈ l) (rest : Option N)
    (hp : rest = none ∨ rest = some r.path) : ∃ a ∈ db.anns, getKey db l r.key rest = .ok a ∧ a.seq = r.seq ∧ a.frame = r.frame ∧ a.path = r.path := by
  obtain ⟨a, ha, hak, hap⟩ := hc.2 r hr
  have hk2 := hak
  simp only [Ann.key, Row.key, Prod.mk.injEq] at hk2
  refine ⟨a, ha, ?_, hk2.1, hk2.2, hap⟩
  unfold getKey
  rw [filter_key hc.1 hr]
  have hf : (db.anns.find? fun a => a.key = r.key) = some a := by
    cases hf : db.anns.find? fun a => a.key = r.key with
    | none =>
      have := List.find?_eq_none.1 hf a ha
      simp [hak] at this
    | some b =>
      have h1 := List.find?_some hf
      simp only [decide_eq_true_eq] at h1
      rw [keyed_unique hk (List.mem_of_find?_eq_some hf) ha (h1.trans hak.symm)]
  dsimp only
  have : ¬ (rest.isSome ∧ rest ≠ some r.path) := by
    rintro ⟨h1, h2⟩
    rcases hp with rfl | rfl
    · cases h1
    · exact h2 rfl
  rw [if_neg this, hf]
  simp [hap]

/-- Keys that are not in the index, and wrong paths, are IndexErrors. -/
theorem getKey_missing (db : Db N) (l : List (Row N)) (k : N × Int) (rest : Option N) (h : ∀ r ∈ l, r.key ≠ k) : getKey db l k rest = .error .index := by
  have : (l.filter fun r => r.key = k) = [] := by
    rw [List.filter_eq_nil_iff]
    intro r hr
    simp [h r hr]
  unfold getKey
  rw [this]

theorem getKey_path {db : Db N} {l : List (Row N)} (hc : Consistent db l) {r : Row N} (hr : r ∈ l) (p : N) (hp : p ≠ r.path) :
    getKey db l r.key (some p) = .error .index := by
  unfold getKey
  rw [filter_key hc.1 hr]
  simp [hp]

/-- Every ordinal index from -n to n-1 works in a consistent index. -/
theorem getInt_spec {db : Db N} {l : List (Row N)} (hc : Consistent db l) (hk : Keyed db) (i : Int) (h1 : -(l.length : Int) ≤ i) (h2 : i < l.length) :
    ∃ r a, l[(if 0 ≤ i then i else l.length + i).toNat]? = some r ∧ getInt db l i = .ok a ∧ a.seq = r.seq ∧ a.frame = r.frame := by
  have hlt : (if 0 ≤ i then i else l.length + i).toNat < l.length := by split_ifs <;> omega
  obtain ⟨r, hr⟩ : ∃ r, l[(if 0 ≤ i then i else l.length + i).toNat]? = some r := ⟨_, List.getElem?_eq_getElem hlt⟩
  obtain ⟨a, _, hg, e1, e2, _⟩ := getKey_spec hc hk (List.mem_of_getElem? hr) none (.inl rfl)
  refine ⟨r, a, hr, ?_, e1, e2⟩
  unfold getInt
  rw [if_neg (by omega)]
  by_cases h0 : 0 ≤ i
  · simp only [h0, if_true] at hr ⊢
    rw [hr]
    exact hg
  · simp only [h0, if_false, h1, if_true] at hr ⊢
    rw [hr]
    exact hg

/-- A frame listed in two of the subsets can never be read. -/
theorem getKey_twice (db : Db N) (l : List (Row N)) (k : N × Int) (rest : Option N) (h : 2 ≤ (l.filter fun r => r.key = k).length) (a : Ann N) :
    getKey db l k rest ≠ .ok a := by
  unfold getKey
  match hf : l.filter fun r => r.key = k with
  | [] => rw [hf] at h; simp at h
  | [r] => rw [hf] at h; simp at h
  | r :: r' :: rs =>
    rw [hf]
    dsimp only
    split_ifs
    · simp
    · cases db.anns.find? fun a => a.key = k <;> simp

/-- The index from the database is consistent, so every frame can be read. -/
theorem fromDb_consistent (c : Cfg N) (db : Db N) (hk : Keyed db) : Consistent db (fromDb c db) := by
  have h0 : Consistent db ((db.anns.filter fun a => keptIn (filterSeqs c db) a.seq && frameWhere c a).map toRow) := by
    refine ⟨?_, fun r hr => ?_⟩
    · rw [List.map_map]
      exact hk.sublist (List.Sublist.map (Row.key ∘ toRow) List.filter_sublist)
    · obtain ⟨a, ha, e⟩ := List.mem_map.1 hr
      subst e
      exact ⟨a, (List.mem_filter.1 ha).1, rfl, rfl⟩
  unfold fromDb limitRows
  split_ifs
  · have hp := List.perm_insertionSort (rowLe (N := N)) ((db.anns.filter fun a => keptIn (filterSeqs c db) a.seq && frameWhere c a).map toRow)
    refine ⟨((hp.map Row.key).nodup_iff.2 h0.1).sublist (List.Sublist.map _ (List.take_sublist _ _)), fun r hr => ?_⟩
    exact h0.2 r (hp.subset (List.mem_of_mem_take hr))
  · exact h0

/-! ### Frames in order -/

/-- Each triple names the time and number of the frame at its index. -/
def Aligned (l : List (Row N)) (s : N) (ts : List (ℚ × Int × Nat)) : Prop :=
  ∀ t ∈ ts, ∃ r, l[t.2.2]? = some r ∧ r.seq = s ∧ r.frame = t.2.1

theorem mem_places {l : List (Row N)} {s : N} {f : Option (List N)} {x : Nat × Row N} (h : x ∈ places l s f) :
    l[x.1]? = some x.2 ∧ x.2.seq = s ∧ inSubset f x.2 = true := by
  unfold places at h
  obtain ⟨h1, h2⟩ := List.mem_filter.1 h
  obtain ⟨y, hy, e⟩ := List.mem_map.1 h1
  subst e
  simp only [Bool.and_eq_true, decide_eq_true_eq] at h2
  exact ⟨List.mem_zipIdx_iff_getElem?.1 hy, h2.1, h2.2⟩

/-- The frames are those of the sequence exactly if the index has them in the order in which the database gives them. -/
theorem aligned_iff (db : Db N) (l : List (Row N)) (s : N) (f : Option (List N)) {ts : List (ℚ × Int × Nat)} (h : framesInOrder db l s f = .ok ts) :
    Aligned l s ts ↔ (places l s f).map (fun x => x.2.frame) = (tsQuery db s ((places l s f).map fun x => x.2.frame)).map Prod.snd := by
  unfold framesInOrder at h
  split_ifs at h with h1 h2
  cases Except.ok.inj h
  have hlen : (tsQuery db s ((places l s f).map fun x => x.2.frame)).length = (places l s f).length := by simpa using h2
  generalize tsQuery db s ((places l s f).map fun x => x.2.frame) = q at *
  have hp : ∀ x ∈ places l s f, l[x.1]? = some x.2 ∧ x.2.seq = s := fun x hx => ⟨(mem_places hx).1, (mem_places hx).2.1⟩
  generalize places l s f = ps at *
  clear h h1 h2
  induction ps generalizing q with
  | nil =>
    have : q = [] := List.length_eq_zero_iff.1 hlen
    subst this
    simp [Aligned, triples]
  | cons x ps ih =>
    cases q with
    | nil => simp at hlen
    | cons y q =>
      have ih2 := ih q (by simpa using hlen) (fun z hz => hp z (List.mem_cons_of_mem _ hz))
      have hx := hp x List.mem_cons_self
      have hcons : Aligned l s (triples (y :: q) (x :: ps)) ↔ x.2.frame = y.2 ∧ Aligned l s (triples q ps) := by
        unfold Aligned triples
        simp only [List.zip_cons_cons, List.map_cons, List.forall_mem_cons]
        refine and_congr ⟨?_, fun e => ⟨x.2, hx.1, hx.2, e⟩⟩ Iff.rfl
        rintro ⟨r, hr, _, e⟩
        rw [hx.1] at hr
        cases hr
        exact e
      exact hcons.trans ((and_congr Iff.rfl ih2).trans (by simp))

theorem places_db (as : List (Ann N)) (s : N) : ∀ (k : Nat),
    ((((as.map toRow).zipIdx k).map fun x => (x.2, x.1)).filter fun x => decide (x.2.seq = s) && inSubset none x.2).map (fun x => x.2.frame)
      = (as.filter fun a => a.seq = s).map Ann.frame := by
  induction as with
  | nil => intro k; simp
  | cons a as ih =>
    intro k
    have := ih (k + 1)
    by_cases h : a.seq = s
    · simp only [List.map_cons, List.zipIdx_cons, List.filter_cons, toRow, h, inSubset, decide_true, Bool.and_self, if_true] at this ⊢
      rw [this]
    · simp only [List.map_cons, List.zipIdx_cons, List.filter_cons, toRow, h, inSubset, decide_false, Bool.false_and] at this ⊢
      simpa using this

/-- All frames of the database, or those of the sequences kept: the triples are right, and in the order of the table. -/
theorem db_aligned (c : Cfg N) (db : Db N) (h : c.limTo ≤ 0) (hf : c.frameClause = none) (hr : c.removeEmpty = false) (s : N)
    (hs : ∃ r ∈ fromDb c db, r.seq = s) :
    ∃ ts, framesInOrder db (fromDb c db) s none = .ok ts ∧ Aligned (fromDb c db) s ts
      ∧ ts.map (fun t => (t.1, t.2.1)) = (db.anns.filter fun a => a.seq = s).map fun a => (a.ts.getD 0, a.frame) := by
  have h' : ¬ 0 < c.limTo := by omega
  have hw : ∀ a : Ann N, frameWhere c a = true := fun a => by simp [frameWhere, hf, hr]
  have hdb : fromDb c db = (db.anns.filter fun a => keptIn (filterSeqs c db) a.seq).map toRow := by
    unfold fromDb limitRows
    rw [if_neg h']
    simp [hw]
  have hkept : keptIn (filterSeqs c db) s = true := by
    obtain ⟨r, hr, e⟩ := hs
    rw [hdb] at hr
    obtain ⟨a, ha, e2⟩ := List.mem_map.1 hr
    subst e2
    rw [← e]
    exact (List.mem_filter.1 ha).2
  have hfr : (places (fromDb c db) s none).map (fun x => x.2.frame) = (db.anns.filter fun a => a.seq = s).map Ann.frame := by
    unfold places
    rw [hdb, places_db, List.filter_filter]
    congr 1
    refine List.filter_congr fun a _ => ?_
    by_cases e : a.seq = s
    · simp [e, hkept]
    · simp [e]
  have hq : tsQuery db s ((db.anns.filter fun a => a.seq = s).map Ann.frame) = (db.anns.filter fun a => a.seq = s).map fun a => (a.ts.getD 0, a.frame) := by
    unfold tsQuery
    congr 1
    refine List.filter_congr fun a ha => ?_
    by_cases e : a.seq = s
    · have : a.frame ∈ (db.anns.filter fun a => a.seq = s).map Ann.frame := List.mem_map.2 ⟨a, List.mem_filter.2 ⟨ha, by simp [e]⟩, rfl⟩
      simp only [e, decide_true, Bool.true_and, decide_eq_true_eq]
      simpa using this
    · simp [e]
  have hlen : (places (fromDb c db) s none).length = (db.anns.filter fun a => a.seq = s).length := by
    have := congrArg List.length hfr
    simpa using this
  have hok : framesInOrder db (fromDb c db) s none = .ok (triples ((db.anns.filter fun a => a.seq = s).map fun a => (a.ts.getD 0, a.frame)) (places (fromDb c db) s none)) := by
    unfold framesInOrder
    rw [hfr, hq, if_neg, if_neg]
    · simp [hlen]
    · obtain ⟨r, hr, e⟩ := hs
      intro hh
      exact hh r hr e
  refine ⟨_, hok, ?_, ?_⟩
  · rw [aligned_iff db _ s none hok, hfr, hq, List.map_map]
    rfl
  · unfold triples
    rw [List.map_map]
    have : ((fun t : ℚ × Int × Nat => (t.1, t.2.1)) ∘ fun x : (ℚ × Int) × (Nat × Row N) => (x.1.1, x.1.2, x.2.1)) = Prod.fst := by
      funext x
      rfl
    rw [this, List.map_fst_zip]
    simp [hlen]

/-- Two frames of one sequence. -/
def db2 : Db ℕ := ⟨[⟨1, 9⟩], [⟨1, 0, 100, some 0, none⟩, ⟨1, 1, 101, some 1, none⟩]⟩

/-- The same frames listed in the other order in a subset (or drawn in that order by sampling): the triples swap them. -/
theorem misaligned : framesInOrder db2 [⟨1, 1, 101, some 5⟩, ⟨1, 0, 100, some 5⟩] 1 none = .ok [(0, 0, 0), (1, 1, 1)]
    ∧ getInt db2 [⟨1, 1, 101, some 5⟩, ⟨1, 0, 100, some 5⟩] 0 = .ok ⟨1, 1, 101, some 1, none⟩ := by decide +kernel

/-- Frames whose times decrease in the table: not sorted by time, as documented. -/
theorem not_sorted : framesInOrder (N := ℕ) ⟨[⟨1, 9⟩], [⟨1, 0, 100, some 7, none⟩, ⟨1, 1, 101, some 3, none⟩]⟩ [⟨1, 0, 100, none⟩, ⟨1, 1, 101, none⟩] 1 none
    = .ok [(7, 0, 0), (3, 1, 1)] := by decide +kernel

/-- Frame numbers and times: the documented pair (number, time) is the triple (row, time, number). -/
theorem frameNumbers_first (db : Db N) (rs : List (Row N)) {out : List (Nat × ℚ × Int)} (h : frameNumbers db rs = .ok out) :
    out.map Prod.fst = List.range rs.length ∧ (∀ x ∈ out, ∃ r ∈ rs, r.frame = x.2.2) ∧ ∀ r ∈ rs, ∀ r' ∈ rs, r.seq = r'.seq := by
  unfold frameNumbers at h
  cases rs with
  | nil => cases Except.ok.inj h; simp
  | cons r rs =>
    dsimp only at h
    split_ifs at h with h1 h2
    cases Except.ok.inj h
    have hlen : (tsQuery db r.seq ((r :: rs).map Row.frame)).length = (r :: rs).length := by simpa using h2
    push Not at h1
    have hall : ∀ x ∈ r :: rs, x.seq = r.seq := by
      intro x hx
      rcases List.mem_cons.1 hx with rfl | hx
      · rfl
      · exact h1 x hx
    refine ⟨?_, fun x hx => ?_, fun x hx y hy => (hall x hx).trans (hall y hy).symm⟩
    · rw [List.map_map, ← hlen]
      have : (Prod.fst ∘ fun x : (ℚ × Int) × ℕ => (x.2, x.1.1, x.1.2)) = Prod.snd := by
        funext x
        rfl
      rw [this, List.zipIdx_map_snd]
      simp [List.range_eq_range']
    · obtain ⟨y, hy, e⟩ := List.mem_map.1 hx
      subst e
      have hm := List.fst_mem_of_mem_zipIdx hy
      unfold tsQuery at hm
      obtain ⟨a, ha, e⟩ := List.mem_map.1 hm
      rw [← e]
      have := (List.mem_filter.1 ha).2
      simp only [Bool.and_eq_true, decide_eq_true_eq] at this
      obtain ⟨r', hr', e'⟩ := List.mem_map.1 this.2
      exact ⟨r', hr', e'⟩

/-- Frame 5 at time 2: the pair is (0, 2, 5). -/
theorem frameNumbers_wrong : frameNumbers (N := ℕ) ⟨[⟨1, 9⟩], [⟨1, 5, 100, some 2, none⟩]⟩ [⟨1, 5, 100, none⟩] = .ok [(0, 2, 5)] := by decide +kernel

/-! ### Evaluation batches -/

theorem byFirst_mem {p : N → Bool} {bs out : List (List (N × Int))} (h : byFirst p bs = .ok out) (b : List (N × Int)) :
    b ∈ out ↔ b ∈ bs ∧ ∃ x, b.head? = some x ∧ p x.1 = true := by
  unfold byFirst at h
  split_ifs at h
  cases Except.ok.inj h
  rw [List.mem_filter]
  refine and_congr Iff.rfl ?_
  cases b.head? <;> simp

/-- Batches kept: by their first frame, those of a picked sequence or of a sequence of the dataset in a picked category, and of no excluded one. -/
theorem evalBatches_spec (c : Cfg N) (db : Db N) (l : List (Row N)) (bs out : List (List (N × Int))) (h : evalBatches c db l bs = .ok out) :
    ∃ ps, evalPick c db l = some ps ∧ ∀ b, b ∈ out ↔ b ∈ bs ∧ (ps ≠ [] → ∃ x, b.head? = some x ∧ x.1 ∈ ps) ∧ (c.excl ≠ [] → ∃ x, b.head? = some x ∧ x.1 ∉ c.excl) := by
  unfold evalBatches at h
  cases hp : evalPick c db l with
  | none => rw [hp] at h; cases h
  | some ps =>
    rw [hp] at h
    dsimp only at h
    cases hq : evalPicked ps bs with
    | error e => rw [hq] at h; cases h
    | ok bs' =>
      rw [hq] at h
      dsimp only at h
      refine ⟨ps, rfl, fun b => ?_⟩
      have h1 : b ∈ bs' ↔ b ∈ bs ∧ (ps ≠ [] → ∃ x, b.head? = some x ∧ x.1 ∈ ps) := by
        unfold evalPicked at hq
        split_ifs at hq with he
        · cases Except.ok.inj hq
          have : ps = [] := by simpa using he
          simp [this]
        · have : ps ≠ [] := by simpa using he
          rw [byFirst_mem hq]
          simp [this]
      have h2 : b ∈ out ↔ b ∈ bs' ∧ (c.excl ≠ [] → ∃ x, b.head? = some x ∧ x.1 ∉ c.excl) := by
        unfold evalExcl at h
        split_ifs at h with he
        · cases Except.ok.inj h
          have : c.excl = [] := by simpa using he
          simp [this]
        · have : c.excl ≠ [] := by simpa using he
          rw [byFirst_mem h]
          simp [this]
      rw [h2, h1, and_assoc]

theorem mapM_option {α β : Type} (f : α → Option β) : ∀ (l : List α) {r : List β}, l.mapM f = some r → ∀ y, y ∈ r ↔ ∃ x ∈ l, f x = some y
  | [], r, h, y => by
    rw [List.mapM_nil] at h
    cases Option.some.inj h
    simp
  | a :: l, r, h, y => by
    rw [List.mapM_cons] at h
    cases ha : f a with
    | none => rw [ha] at h; cases h
    | some b =>
      rw [ha] at h
      cases hl : l.mapM f with
      | none => rw [hl] at h; cases h
      | some bs =>
        rw [hl] at h
        have := Option.some.inj h
        subst this
        rw [List.mem_cons, mapM_option f l hl]
        simp [ha, eq_comm]

/-- The sequences picked are the union of those picked by name, in the dataset or not, and those of the picked categories. -/
theorem evalPick_union (c : Cfg N) (db : Db N) (l : List (Row N)) {ps : List N} (h : evalPick c db l = some ps) (n : N) :
    n ∈ ps ↔ n ∈ c.pickSeqs ∨ ∃ s ∈ db.seqs, s.name = n ∧ s.cat ∈ c.pickCats ∧ n ∈ l.map Row.seq := by
  unfold evalPick at h
  cases hm : c.pickCats.mapM (catSeqs db l) with
  | none => rw [hm] at h; cases h
  | some xs =>
    rw [hm] at h
    cases Option.some.inj h
    rw [List.mem_append, List.mem_flatten]
    refine or_congr Iff.rfl ?_
    have hc : ∀ cat ns, catSeqs db l cat = some ns → (n ∈ ns ↔ ∃ s ∈ db.seqs, s.name = n ∧ s.cat = cat ∧ n ∈ l.map Row.seq) := by
      intro cat ns hh
      unfold catSeqs at hh
      split at hh
      · cases hh
      · rename_i ns' _
        cases Option.some.inj hh
        rw [List.mem_map]
        constructor
        · rintro ⟨s, hs, e⟩
          obtain ⟨h1, h2⟩ := List.mem_filter.1 hs
          simp only [Bool.and_eq_true, decide_eq_true_eq] at h2
          exact ⟨s, h1, e, h2.1, e ▸ h2.2⟩
        · rintro ⟨s, h1, e, h2, h3⟩
          refine ⟨s, List.mem_filter.2 ⟨h1, ?_⟩, e⟩
          simp only [Bool.and_eq_true, decide_eq_true_eq]
          exact ⟨h2, e ▸ h3⟩
    constructor
    · rintro ⟨ns, h1, h2⟩
      obtain ⟨cat, h3, h4⟩ := (mapM_option _ _ hm ns).1 h1
      obtain ⟨s, a, b, d, e⟩ := (hc cat ns h4).1 h2
      exact ⟨s, a, b, d ▸ h3, e⟩
    · rintro ⟨s, a, b, d, e⟩
      have : ∃ ns, catSeqs db l s.cat = some ns := by
        have hne : (db.seqs.filter fun s' => decide (s'.cat = s.cat) && decide (s'.name ∈ l.map Row.seq)).map SeqA.name ≠ [] := by
          intro hnil
          rw [List.map_eq_nil_iff, List.filter_eq_nil_iff] at hnil
          refine hnil s a ?_
          simp only [Bool.and_eq_true, decide_eq_true_eq]
          exact ⟨trivial, b ▸ e⟩
        unfold catSeqs
        split
        · rename_i hnil
          exact absurd hnil hne
        · exact ⟨_, rfl⟩
      obtain ⟨ns, hns⟩ := this
      exact ⟨ns, (mapM_option _ _ hm ns).2 ⟨s.cat, d, hns⟩, (hc _ _ hns).2 ⟨s, a, b, rfl, e⟩⟩

def noCfg : Cfg ℕ := ⟨[], none, false, 0, [], [], [], none, none, 0, 0, 0, -1⟩

/-- Two sequences of two categories. -/
def db3 : Db ℕ := ⟨[⟨1, 9⟩, ⟨2, 8⟩], [⟨1, 0, 100, none, none⟩, ⟨2, 0, 101, none, none⟩]⟩

/-- Sequences 1 and 2 picked, and the category of 2: the dataset has sequence 2 only (both conditions), but the batch of sequence 1 is kept (one of them) and cannot be read. -/
theorem eval_union : fromDb { noCfg with pickSeqs := [1, 2], pickCats := [8] } db3 = [⟨2, 0, 101, none⟩]
    ∧ evalBatches { noCfg with pickSeqs := [1, 2], pickCats := [8] } db3 [⟨2, 0, 101, none⟩] [[(1, 0)], [(2, 0)]] = .ok [[(1, 0)], [(2, 0)]]
    ∧ getKey db3 [⟨2, 0, 101, none⟩] (1, 0) none = .error .index := by decide +kernel

/-- Limits and clauses do not filter the batches: the batch of a dropped sequence is kept. -/
theorem eval_limits : fromDb { noCfg with limSeqs := 1 } db3 = [⟨1, 0, 100, none⟩]
    ∧ evalBatches { noCfg with limSeqs := 1 } db3 [⟨1, 0, 100, none⟩] [[(1, 0)], [(2, 0)]] = .ok [[(1, 0)], [(2, 0)]]
    ∧ getKey db3 [⟨1, 0, 100, none⟩] (2, 0) none = .error .index := by decide +kernel

/-- A picked category without frames is a KeyError. -/
theorem eval_key (c : Cfg N) (db : Db N) (l : List (Row N)) (bs : List (List (N × Int))) (cat : N) (hc : cat ∈ c.pickCats)
    (h : ∀ s ∈ db.seqs, s.cat = cat → s.name ∉ l.map Row.seq) : evalBatches c db l bs = .error .key := by
  have hn : catSeqs db l cat = none := by
    have : (db.seqs.filter fun s => decide (s.cat = cat) && decide (s.name ∈ l.map Row.seq)) = [] := by
      rw [List.filter_eq_nil_iff]
      intro s hs
      simp only [Bool.and_eq_true, decide_eq_true_eq, not_and]
      exact h s hs
    simp only [catSeqs, this, List.map_nil]
  have hm : c.pickCats.mapM (catSeqs db l) = none := by
    generalize c.pickCats = cs at hc
    induction cs with
    | nil => cases hc
    | cons d cs ih =>
      rw [List.mapM_cons]
      rcases List.mem_cons.1 hc with rfl | hc
      · rw [hn]; rfl
      · rw [ih hc]
        cases catSeqs db l d <;> rfl
  simp [evalBatches, evalPick, hm]

/-- A dataset that does not count as filtered has all frames of the data base in its order, if there is no frame clause, no subset is asked for and the number of frames per sequence is not zero. -/
theorem not_filtered (samp : List (Row N) → Nat → List (Row N)) (c : Cfg N) (db : Db N) (h : isFiltered c = false) (hc : c.frameClause = none)
    (hs : c.subsets = []) (h0 : c.nPer ≠ 0) (hd : db.anns ≠ []) : build samp c db = .ok (db.anns.map fun a => ⟨a.seq, a.frame, a.path, none⟩) := by
  unfold isFiltered at h
  simp only [Bool.or_eq_false_iff, decide_eq_false_iff_not] at h
  obtain ⟨⟨⟨⟨⟨⟨⟨⟨h1, h2⟩, h3⟩, h4⟩, h5⟩, h6⟩, h7⟩, h8⟩, h9⟩ := h
  have hn : ¬ 0 ≤ c.nPer := by omega
  have hf : filterSeqs c db = none := by
    unfold filterSeqs seqFilterOn
    rw [h5, h6, h7, h8]
    simp [h3, h4]
  have hw : ∀ a : Ann N, frameWhere c a = true := fun a => by
    unfold frameWhere
    rw [h1, hc]
    rfl
  have hb : fromDb c db = db.anns.map toRow := by
    unfold fromDb limitRows
    rw [if_neg h2, hf]
    congr 1
    rw [List.filter_eq_self]
    intro a _
    rw [hw]
    rfl
  unfold build base
  rw [hs]
  simp only [List.isEmpty_nil, if_true]
  rw [hb]
  unfold finish
  rw [if_neg hn, if_neg (by simpa using hd)]
  rfl

example : build (fun l k => l.take k) noCfg db2 = .ok [⟨1, 0, 100, none⟩, ⟨1, 1, 101, none⟩] := by decide +kernel

/-- A frame clause alone filters frames, but the dataset does not count as filtered. -/
theorem clause_not_filtered : isFiltered { noCfg with frameClause := some fun a => a.frame == 1 } = false
    ∧ fromDb { noCfg with frameClause := some fun a => a.frame == 1 } db2 = [⟨1, 1, 101, none⟩] := by decide +kernel

end P3D.SqlIndex
