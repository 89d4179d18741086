/-
Datasets from a data base, point clouds of sequences and pictures of texture maps.

* `implicitron/dataset/sql_dataset_provider.py:173-430` (`SqlIndexDatasetMapProvider`: `__post_init__`, `_get_subsets`, `_extend_eval_batches`, `_get_lists_file`, `_get_local_path_check_extensions`)
* `implicitron/dataset/visualize.py:19-96` (`get_implicitron_sequence_pointcloud`)
* `vis/texture_vis.py:15-115` (`texturesuv_image_matplotlib`, `texturesuv_image_PIL`), `renderer/mesh/textures.py:1609-1647` (`centers_for_image`)

Simplifications: no path manager; files are a predicate on paths that does not change; a dataset is what its constructor is given (it is modelled in `Verif.SqlIndex`); permutations are arguments; numbers are exact;
sampling is that of `Verif.UvSample`.
-/
import Verif.UvSample
import Mathlib.Data.List.Sort
import Mathlib.Data.List.Nodup
import Mathlib.Tactic.Ring
import Mathlib.Tactic.Linarith
import Mathlib.Tactic.NormNum

set_option linter.unusedSectionVars false

namespace P3D.SqlProv

/-- What can go wrong. -/
inductive Err where
  | value
  | index
  | fileNotFound
  | assertion
  deriving DecidableEq, Repr

abbrev Str := List Char

/-! ## Files -/

/-- `os.path.join` of two. -/
def join (a b : Str) : Str := match b with
  | '/' :: _ => b
  | _ => if a = [] then b else if a.getLast? = some '/' then a ++ b else a ++ '/' :: b

/-- Settings of the provider; `None` and the empty string are not distinguished where the code does not. -/
structure Cfg where
  category : Str
  listName : Str
  listsPath : Str
  evalPath : Option Str
  root : Str
  metaFile : Str
  testOnTrain : Bool
  onlyTest : Bool
  ignoreSubsets : Bool
  trainSubsets : List Str
  valSubsets : List Str
  testSubsets : List Str
  evalTrain : Nat

/-- `_get_local_path_check_extensions`, lines 416-424. -/
def withExt (isFile : Str → Bool) (p : Str) : Option Str := ["".toList, ".sqlite".toList, ".json".toList].findSome? (fun e => if isFile (p ++ e) then some (p ++ e) else none)

/-- The path that is looked for by `_get_lists_file`, lines 376-396. -/
def listsPathOf (c : Cfg) (flavor : Str) : Option Str :=
  let given := if flavor = "eval_batches".toList then c.evalPath.getD [] else c.listsPath
  if given = [] ∧ c.listName = [] then none
  else if given ≠ [] then some given
  else some (join (join (if c.category ≠ [] ∧ ',' ∉ c.category then c.category else []) flavor) (flavor ++ '_' :: c.listName))

/-- The path of evaluation batches is used for these only, that of subsets for all else.  Without path the name of the list is looked for in the directory of the kind, below that of the category if there is exactly one. -/
theorem listsPathOf_spec (c : Cfg) (flavor : Str) :
    (∀ p, c.evalPath = some p → p ≠ [] → listsPathOf c "eval_batches".toList = some p) ∧
    (flavor ≠ "eval_batches".toList → c.listsPath ≠ [] → listsPathOf c flavor = some c.listsPath) ∧
    ((flavor = "eval_batches".toList → c.evalPath = none ∨ c.evalPath = some []) → (flavor ≠ "eval_batches".toList → c.listsPath = []) →
      (c.listName = [] → listsPathOf c flavor = none) ∧
      (c.listName ≠ [] → ',' ∈ c.category → listsPathOf c flavor = some (join (join [] flavor) (flavor ++ '_' :: c.listName))) ∧
      (c.listName ≠ [] → ',' ∉ c.category → listsPathOf c flavor = some (join (join c.category flavor) (flavor ++ '_' :: c.listName)))) := by
  refine ⟨fun p hp hne => ?_, fun hf hne => ?_, fun h1 h2 => ?_⟩
  · unfold listsPathOf
    rw [if_pos rfl, hp]
    simp only [Option.getD_some]
    rw [if_neg (fun h => hne h.1), if_pos hne]
  · unfold listsPathOf
    rw [if_neg hf]
    dsimp only
    rw [if_neg (fun h => hne h.1), if_pos hne]
  · have hg : (if flavor = "eval_batches".toList then c.evalPath.getD [] else c.listsPath) = [] := by
      split_ifs with hf
      · rcases h1 hf with h | h <;> rw [h] <;> rfl
      · exact h2 hf
    unfold listsPathOf
    rw [hg]
    clear hg h1 h2
    dsimp only
    refine ⟨fun hn => if_pos ⟨rfl, hn⟩, fun hn hc => ?_, fun hn hc => ?_⟩
    · rw [if_neg (fun h => hn h.2), if_neg (fun h => h rfl), if_neg (fun h => h.2 hc)]
    · rw [if_neg (fun h => hn h.2), if_neg (fun h => h rfl)]
      by_cases h0 : c.category = []
      · rw [if_neg (fun h => h.1 h0), h0]
      · rw [if_pos ⟨h0, hc⟩]

/-- `_get_lists_file`, lines 376-413. -/
def listsFile (isFile : Str → Bool) (c : Cfg) (flavor : Str) : Except Err (Option Str) := match listsPathOf c flavor with
  | none => .ok none
  | some p => match withExt isFile p with
    | some f => .ok (some f)
    | none => match withExt isFile (join c.root p) with
      | some f => .ok (some f)
      | none => .error .fileNotFound

/-- Places of the file of a path, in the order of preference. -/
def places (root p : Str) : List Str := [p, p ++ ".sqlite".toList, p ++ ".json".toList, join root p, join root p ++ ".sqlite".toList, join root p ++ ".json".toList]

/-- The file is the first of the six places where there is one, those relative to the current directory before those in the dataset; it is an error if there is none.  Nothing is looked for without path and name. -/
theorem listsFile_spec (isFile : Str → Bool) (c : Cfg) (flavor : Str) :
    (listsPathOf c flavor = none → listsFile isFile c flavor = .ok none) ∧
    ∀ p, listsPathOf c flavor = some p →
      (∀ f, listsFile isFile c flavor = .ok (some f) ↔ ∃ pre post, places c.root p = pre ++ f :: post ∧ isFile f = true ∧ (∀ g ∈ pre, isFile g = false) ∧ f ∉ pre) ∧
      (listsFile isFile c flavor = .error .fileNotFound ↔ ∀ g ∈ places c.root p, isFile g = false) ∧ listsFile isFile c flavor ≠ .ok none := by
  have hfind : ∀ p, listsPathOf c flavor = some p → listsFile isFile c flavor = match (places c.root p).find? isFile with | some f => .ok (some f) | none => .error .fileNotFound := by
    intro p hp
    unfold listsFile
    rw [hp]
    simp only [withExt, places, List.findSome?, List.find?, List.append_nil, String.toList_empty]
    cases h1 : isFile p
    · cases h2 : isFile (p ++ ".sqlite".toList)
      · cases h3 : isFile (p ++ ".json".toList)
        · cases h4 : isFile (join c.root p)
          · cases h5 : isFile (join c.root p ++ ".sqlite".toList)
            · cases h6 : isFile (join c.root p ++ ".json".toList) <;> simp
            · simp
          · simp
        · simp
      · simp
    · simp
  refine ⟨fun h => by rw [listsFile, h], ?_⟩
  intro p hp
  rw [hfind p hp]
  cases hf : (places c.root p).find? isFile with
  | none =>
    rw [List.find?_eq_none] at hf
    refine ⟨?_, ?_, by simp⟩
    · intro f
      constructor
      · intro h; cases h
      · rintro ⟨pre, post, h1, h2, -⟩
        exact absurd h2 (hf f (by rw [h1]; simp))
    · simp only [true_iff]
      intro g hg
      simpa using hf g hg
  | some f0 =>
    obtain ⟨h0, pre0, post0, h1, h2⟩ := List.find?_eq_some_iff_append.mp hf
    refine ⟨?_, ?_, by simp⟩
    · intro f
      simp only [Except.ok.injEq, Option.some.injEq]
      constructor
      · rintro rfl
        refine ⟨pre0, post0, h1, h0, fun g hg => by simpa using h2 g hg, ?_⟩
        intro hin
        have := h2 f0 hin
        rw [h0] at this
        cases this
      · rintro ⟨pre, post, e, hf1, hf2, -⟩
        have : (places c.root p).find? isFile = some f := by
          rw [List.find?_eq_some_iff_append]
          exact ⟨hf1, pre, post, e, fun g hg => by simp [hf2 g hg]⟩
        rw [hf] at this
        exact Option.some.inj this
    · simp only [reduceCtorEq, false_iff]
      intro hall
      have := hall f0 (by rw [h1]; simp)
      rw [h0] at this
      cases this

/-- Absolute paths do not depend on the root. -/
theorem join_absolute (a b : Str) : join a ('/' :: b) = '/' :: b := rfl

/-! ## The datasets -/

/-- What a dataset is made of. -/
structure Ds where
  subsets : Option (List Str)
  lists : Option Str
  batches : Option Str
  extended : Bool
  deriving DecidableEq

/-- The datasets that are loaded, and which of them is for what. -/
structure Map where
  loads : List Ds
  train : Option Nat
  val : Option Nat
  test : Nat
  deriving DecidableEq

/-- `_get_subsets`, lines 310-318. -/
def subsets (c : Cfg) (l : List Str) (isEval : Bool) : Option (List Str) := if c.ignoreSubsets then none else if isEval = true ∧ 0 < c.evalTrain then some (l ++ c.trainSubsets) else some l

/-- The file of evaluation batches, lines 285-288: only if a path is given. -/
def evalFile (isFile : Str → Bool) (c : Cfg) : Except Err (Option Str) := match c.evalPath with
  | none => .ok none
  | some _ => listsFile isFile c "eval_batches".toList

/-- `__post_init__`, lines 201-308. -/
def build (isFile : Str → Bool) (c : Cfg) : Except Err Map :=
  if c.onlyTest = true ∧ c.testOnTrain = true then .error .value
  else
    let onTrain := if c.ignoreSubsets = true ∧ c.onlyTest = false then true else c.testOnTrain
    if isFile (join c.root c.metaFile) = false then .error .value
    else if c.listsPath ≠ [] ∧ c.listName ≠ [] then .error .value
    else match listsFile isFile c "set_lists".toList with
      | .error e => .error e
      | .ok lists =>
        if lists.elim false (fun f => !isFile f) then .error .assertion
        else if onTrain then .ok ⟨[⟨subsets c c.trainSubsets false, lists, none, false⟩], some 0, some 0, 0⟩
        else match evalFile isFile c with
          | .error e => .error e
          | .ok (batches : Option Str) =>
            let test := Ds.mk (subsets c c.testSubsets true) lists batches (batches.isSome && decide (0 < c.evalTrain))
            if c.onlyTest then .ok ⟨[test], none, none, 0⟩
            else .ok ⟨[⟨subsets c c.trainSubsets false, lists, none, false⟩, ⟨subsets c c.valSubsets false, lists, none, false⟩, test], some 0, some 1, 2⟩

/-- The dataset of each part. -/
def Map.get (m : Map) : Option Ds × Option Ds × Option Ds := (m.train.bind (fun i => m.loads[i]?), m.val.bind (fun i => m.loads[i]?), m.loads[m.test]?)

theorem build_cases (isFile : Str → Bool) (c : Cfg) (m : Map) (h : build isFile c = .ok m) : ¬ (c.onlyTest = true ∧ c.testOnTrain = true) ∧ isFile (join c.root c.metaFile) = true ∧ (c.listsPath = [] ∨ c.listName = []) ∧
    ∃ lists, listsFile isFile c "set_lists".toList = .ok lists ∧
      ((((c.ignoreSubsets = true ∧ c.onlyTest = false) ∨ c.testOnTrain = true) ∧ m = ⟨[⟨subsets c c.trainSubsets false, lists, none, false⟩], some 0, some 0, 0⟩) ∨
       (¬ ((c.ignoreSubsets = true ∧ c.onlyTest = false) ∨ c.testOnTrain = true) ∧ ∃ batches, evalFile isFile c = .ok batches ∧
        ((c.onlyTest = true ∧ m = ⟨[⟨subsets c c.testSubsets true, lists, batches, batches.isSome && decide (0 < c.evalTrain)⟩], none, none, 0⟩) ∨
         (c.onlyTest = false ∧ m = ⟨[⟨subsets c c.trainSubsets false, lists, none, false⟩, ⟨subsets c c.valSubsets false, lists, none, false⟩,
            ⟨subsets c c.testSubsets true, lists, batches, batches.isSome && decide (0 < c.evalTrain)⟩], some 0, some 1, 2⟩)))) := by
  unfold build at h
  split at h
  · cases h
  · rename_i h1
    dsimp only at h
    split at h
    · cases h
    · rename_i h2
      split at h
      · cases h
      · rename_i h3
        refine ⟨h1, by simpa using h2, by tauto, ?_⟩
        split at h
        · cases h
        · rename_i lists hl
          refine ⟨lists, hl, ?_⟩
          split at h
          · cases h
          · have hon : (if c.ignoreSubsets = true ∧ c.onlyTest = false then true else c.testOnTrain) = true ↔ (c.ignoreSubsets = true ∧ c.onlyTest = false) ∨ c.testOnTrain = true := by
              split_ifs with h6 <;> simp [h6]
            rw [← hon]
            generalize (if c.ignoreSubsets = true ∧ c.onlyTest = false then true else c.testOnTrain) = t at h
            cases t
            · right
              refine ⟨by simp, ?_⟩
              rw [if_neg (by simp)] at h
              split at h
              · cases h
              · rename_i batches hb
                refine ⟨batches, hb, ?_⟩
                split at h
                · rename_i h7
                  exact Or.inl ⟨h7, by injection h with h; exact h.symm⟩
                · rename_i h7
                  exact Or.inr ⟨by simpa using h7, by injection h with h; exact h.symm⟩
            · left
              rw [if_pos rfl] at h
              exact ⟨rfl, by injection h with h; exact h.symm⟩

/-- With subsets: training, validation and test data are of their own subsets, but test data also of the training subsets when evaluation batches are to be extended, whether or not there are evaluation batches. -/
theorem build_subsets (isFile : Str → Bool) (c : Cfg) (m : Map) (h : build isFile c = .ok m) (hi : c.ignoreSubsets = false) (ht : c.testOnTrain = false) :
    (m.get.1.map (·.subsets) = if c.onlyTest then none else some (some c.trainSubsets)) ∧ (m.get.2.1.map (·.subsets) = if c.onlyTest then none else some (some c.valSubsets)) ∧
    m.get.2.2.map (·.subsets) = some (some (c.testSubsets ++ if 0 < c.evalTrain then c.trainSubsets else [])) ∧
    (c.evalPath = none → m.get.2.2.map (·.batches) = some none) := by
  obtain ⟨-, -, -, lists, -, h⟩ := build_cases isFile c m h
  rcases h with ⟨h, -⟩ | ⟨-, b, hb, h⟩
  · simp [hi, ht] at h
  · have hs : subsets c c.testSubsets true = some (c.testSubsets ++ if 0 < c.evalTrain then c.trainSubsets else []) := by
      unfold subsets
      rw [hi]
      split_ifs <;> simp_all
    have hbn : c.evalPath = none → b = none := by
      intro he
      rw [evalFile, he] at hb
      injection hb with hb
      exact hb.symm
    rcases h with ⟨ho, rfl⟩ | ⟨ho, rfl⟩
    · simp only [Map.get, Option.bind_none, Option.map_none, ho, if_true, List.getElem?_cons_zero, Option.map_some, hs, true_and]
      intro he
      rw [hbn he]
    · simp only [Map.get, Option.bind_some, ho, List.getElem?_cons_zero, List.getElem?_cons_succ, Option.map_some, hs, Bool.false_eq_true, if_false]
      refine ⟨by simp [subsets, hi], by simp [subsets, hi], trivial, ?_⟩
      intro he
      rw [hbn he]

/-- Without subsets, or testing on training data, one dataset is loaded for all; evaluation batches are not read then, whatever path is given. -/
theorem build_same (isFile : Str → Bool) (c : Cfg) (m : Map) (h : build isFile c = .ok m) (hs : (c.ignoreSubsets = true ∧ c.onlyTest = false) ∨ c.testOnTrain = true) :
    m.loads.length = 1 ∧ m.get.1 = m.get.2.2 ∧ m.get.2.1 = m.get.2.2 ∧ ∃ d, m.get.2.2 = some d ∧ d.batches = none ∧ d.subsets = if c.ignoreSubsets then none else some c.trainSubsets := by
  obtain ⟨-, -, -, lists, -, h⟩ := build_cases isFile c m h
  rcases h with ⟨-, rfl⟩ | ⟨h, -⟩
  · refine ⟨rfl, rfl, rfl, _, rfl, rfl, ?_⟩
    simp only [subsets]
    split_ifs <;> simp_all
  · exact absurd hs h

/-- A name of lists alone never selects evaluation batches, though the file would be found: the name is only used when an empty path of batches is given. -/
theorem name_no_batches (isFile : Str → Bool) (c : Cfg) (m : Map) (h : build isFile c = .ok m) (he : c.evalPath = none) : ∀ d ∈ m.loads, d.batches = none ∧ d.extended = false := by
  obtain ⟨-, -, -, lists, -, h⟩ := build_cases isFile c m h
  rcases h with ⟨-, rfl⟩ | ⟨-, b, hb, h⟩
  · simp
  · rw [evalFile, he] at hb
    injection hb with hb
    subst hb
    rcases h with ⟨-, rfl⟩ | ⟨-, rfl⟩ <;> simp

/-- The message about available subsets is never seen: a file that was found exists. -/
theorem no_assertion (isFile : Str → Bool) (c : Cfg) : build isFile c ≠ .error .assertion := by
  have hl : ∀ flavor, listsFile isFile c flavor ≠ .error .assertion ∧ ∀ f, listsFile isFile c flavor = .ok (some f) → isFile f = true := by
    intro flavor
    obtain ⟨h1, h2⟩ := listsFile_spec isFile c flavor
    cases hp : listsPathOf c flavor with
    | none =>
      rw [h1 hp]
      simp
    | some p =>
      obtain ⟨h3, -, -⟩ := h2 p hp
      refine ⟨?_, ?_⟩
      · unfold listsFile
        rw [hp]
        dsimp only
        cases withExt isFile p with
        | some f => simp
        | none =>
          cases withExt isFile (join c.root p) with
          | some f => simp
          | none => simp
      · intro f hf
        obtain ⟨_, _, _, h, _⟩ := (h3 f).mp hf
        exact h
  intro h
  unfold build at h
  split at h
  · cases h
  · dsimp only at h
    split at h
    · cases h
    · split at h
      · cases h
      · split at h
        · rename_i e he
          injection h with h
          subst h
          exact (hl _).1 he
        · rename_i lists he
          split at h
          · rename_i hc
            cases lists with
            | none => simp at hc
            | some f =>
              rw [Option.elim_some, (hl _).2 f he] at hc
              simp at hc
          · generalize (if c.ignoreSubsets = true ∧ c.onlyTest = false then true else c.testOnTrain) = t at h
            cases t
            · rw [if_neg (by simp)] at h
              split at h
              · rename_i e hb
                injection h with h
                subst h
                cases hev : c.evalPath with
                | none => rw [evalFile, hev] at hb; cases hb
                | some p => rw [evalFile, hev] at hb; exact (hl _).1 hb
              · split at h <;> cases h
            · cases h

/-! ## Evaluation batches -/

/-- `_extend_eval_batches` for one batch, lines 326-334: `frames` are the frame numbers of the training frames of a sequence in order, `perm` the permutation. -/
def extendOne {S : Type} (frames : S → List Int) (k : Nat) (perm : List Nat) (batch : List (S × Int)) : Except Err (List (S × Int)) := match batch with
  | [] => .error .index
  | (s, f) :: l => .ok ((s, f) :: l ++ (perm.take k).filterMap (fun a => ((frames s)[a]?).map (fun n => (s, n))))

/-- A batch is kept and followed by different training frames of the sequence of its first frame, as many as asked for or all. -/
theorem extendOne_spec {S : Type} (frames : S → List Int) (k : Nat) (perm : List Nat) (s : S) (f : Int) (l : List (S × Int)) (hp : perm.Perm (List.range (frames s).length)) (hn : (frames s).Nodup) :
    ∃ more, extendOne frames k perm ((s, f) :: l) = .ok ((s, f) :: l ++ more) ∧ more.length = min k (frames s).length ∧ more.Nodup ∧ ∀ x ∈ more, x.1 = s ∧ x.2 ∈ frames s := by
  refine ⟨_, rfl, ?_, ?_, ?_⟩
  · have key : ∀ q : List Nat, (∀ i ∈ q, i < (frames s).length) → (q.filterMap (fun a => ((frames s)[a]?).map (fun n => (s, n)))).length = q.length := by
      intro q hq
      induction q with
      | nil => rfl
      | cons a q ih =>
        rw [List.filterMap_cons, List.getElem?_eq_getElem (hq a (List.mem_cons_self ..))]
        simp only [Option.map_some, List.length_cons, ih (fun i hi => hq i (List.mem_cons_of_mem _ hi))]
    rw [key _ (fun i hi => List.mem_range.mp (hp.mem_iff.mp (List.mem_of_mem_take hi))), List.length_take, hp.length_eq, List.length_range]
  · refine List.Nodup.filterMap ?_ ((hp.nodup_iff.mpr List.nodup_range).sublist (List.take_sublist _ _))
    intro a a' b hb hb'
    simp only [Option.mem_def, Option.map_eq_some_iff] at hb hb'
    obtain ⟨n, h1, rfl⟩ := hb
    obtain ⟨n', h2, h3⟩ := hb'
    have e : n' = n := (Prod.mk.inj h3).2
    subst e
    obtain ⟨ha, ha'⟩ := List.getElem?_eq_some_iff.mp h1
    obtain ⟨hb, hb'⟩ := List.getElem?_eq_some_iff.mp h2
    exact (List.Nodup.getElem_inj_iff hn).mp (ha'.trans hb'.symm)
  · intro x hx
    obtain ⟨a, -, ha⟩ := List.mem_filterMap.mp hx
    obtain ⟨n, hn', rfl⟩ := Option.map_eq_some_iff.mp ha
    exact ⟨rfl, List.mem_of_getElem? hn'⟩

/-! ## Point clouds of sequences -/

/-- Flags of the dataset and of the call, `visualize.py:19-40`. -/
structure Flags where
  depths : Bool
  masks : Bool
  clouds : Bool
  maskPoints : Bool
  loadCloud : Bool

/-- The frames that are loaded, `visualize.py:32-72`, and whether the cloud is that of the dataset (`none` for an error after loading); `names` are the sequences of the frames, `perm` the permutation. -/
def cloudFrames {S : Type} [DecidableEq S] (f : Flags) (names : List S) (seq : Option S) (maxFrames : Int) (perm : List Nat) : Except Err (List Nat × Bool) :=
  if names = [] then .error .value
  else if f.depths = false then .error .value
  else if f.maskPoints = true ∧ f.masks = false then .error .value
  else
    let entries := match seq with
      | none => List.range names.length
      | some s => (List.range names.length).filter (fun i => decide (names[i]? = some s))
    if entries = [] then .error .value
    else
      let entries := if 0 < maxFrames ∧ maxFrames < entries.length then (((perm.take maxFrames.toNat).mergeSort (fun a b => decide (a ≤ b))).filterMap (fun i => entries[i]?)) else entries
      if f.loadCloud = true ∧ f.clouds = false then .error .value else .ok (entries, f.loadCloud)

/-- The frames are frames of the sequence, each once and in the order of the dataset, all of them or as many as allowed. -/
theorem cloudFrames_spec {S : Type} [DecidableEq S] (f : Flags) (names : List S) (seq : Option S) (maxFrames : Int) (perm : List Nat) (es : List Nat) (b : Bool)
    (hp : ∀ all : List Nat, (∀ i, i ∈ all ↔ i < names.length ∧ ∀ s, seq = some s → names[i]? = some s) → all.Nodup → perm.Perm (List.range all.length))
    (h : cloudFrames f names seq maxFrames perm = .ok (es, b)) :
    ∃ all : List Nat, all.Pairwise (· < ·) ∧ (∀ i, i ∈ all ↔ i < names.length ∧ ∀ s, seq = some s → names[i]? = some s) ∧ es.Sublist all ∧
      (es.length : Int) = (if 0 < maxFrames then min maxFrames all.length else all.length) ∧ es ≠ [] ∧ b = f.loadCloud := by
  unfold cloudFrames at h
  split at h
  · cases h
  · split at h
    · cases h
    · split at h
      · cases h
      · dsimp only at h
        generalize hall : (match seq with | none => List.range names.length | some s => (List.range names.length).filter (fun i => decide (names[i]? = some s))) = all at h
        have hsorted : all.Pairwise (· < ·) := by
          rw [← hall]
          cases seq with
          | none => exact List.pairwise_lt_range
          | some s => exact List.Pairwise.filter _ List.pairwise_lt_range
        have hmem : ∀ i, i ∈ all ↔ i < names.length ∧ ∀ s, seq = some s → names[i]? = some s := by
          intro i
          rw [← hall]
          cases seq with
          | none => simp
          | some s => simp
        split at h
        · cases h
        · rename_i hne
          split at h
          · cases h
          · have hperm := hp all hmem (hsorted.imp (fun h => ne_of_lt h))
            simp only [Except.ok.injEq, Prod.mk.injEq] at h
            obtain ⟨h1, h2⟩ := h
            refine ⟨all, hsorted, hmem, ?_⟩
            by_cases hc : 0 < maxFrames ∧ maxFrames < all.length
            · rw [if_pos hc] at h1
              set q := (perm.take maxFrames.toNat).mergeSort (fun a b => decide (a ≤ b)) with hq
              have hqp : q.Perm (perm.take maxFrames.toNat) := List.mergeSort_perm _ _
              have hqs : q.Pairwise (· ≤ ·) := by
                have := List.pairwise_mergeSort (le := fun a b : Nat => decide (a ≤ b)) (by intro a b c; simp; omega) (by intro a b; simp; omega) (perm.take maxFrames.toNat)
                exact this.imp (fun h => by simpa using h)
              have hqn : q.Nodup := hqp.nodup_iff.mpr ((hperm.nodup_iff.mpr List.nodup_range).sublist (List.take_sublist _ _))
              have hql : q.Pairwise (· < ·) := (hqs.and hqn).imp (fun h => lt_of_le_of_ne h.1 h.2)
              have hqb : ∀ i ∈ q, i < all.length := fun i hi => List.mem_range.mp (hperm.mem_iff.mp (List.mem_of_mem_take (hqp.mem_iff.mp hi)))
              have hlen : q.length = maxFrames.toNat := by
                rw [hqp.length_eq, List.length_take, hperm.length_eq, List.length_range]
                omega
              have key : ∀ (q : List Nat), (∀ i ∈ q, i < all.length) → (q.filterMap (fun i => all[i]?)).length = q.length := by
                intro q hq
                induction q with
                | nil => rfl
                | cons a q ih =>
                  rw [List.filterMap_cons, List.getElem?_eq_getElem (hq a (List.mem_cons_self ..))]
                  simp only [List.length_cons, ih (fun i hi => hq i (List.mem_cons_of_mem _ hi))]
              have hel : es.length = maxFrames.toNat := by rw [← h1, key q hqb, hlen]
              refine ⟨?_, ?_, ?_, h2.symm⟩
              · have hsub : ∀ (k : Nat) (l : List Nat) (q : List Nat), q.Pairwise (· < ·) → (∀ i ∈ q, k ≤ i ∧ i < k + l.length) → (q.filterMap (fun i => l[i - k]?)).Sublist l := by
                  intro k l
                  induction l generalizing k with
                  | nil =>
                    intro q _ hq
                    cases q with
                    | nil => exact List.Sublist.refl _
                    | cons a q =>
                      have := hq a (List.mem_cons_self ..)
                      simp at this
                      omega
                  | cons x l ih =>
                    intro q hs hq
                    have hrest : ∀ q : List Nat, q.Pairwise (· < ·) → (∀ i ∈ q, k + 1 ≤ i ∧ i < k + 1 + l.length) → (q.filterMap (fun i => (x :: l)[i - k]?)).Sublist l := by
                      intro q hs hq
                      have e : q.filterMap (fun i => (x :: l)[i - k]?) = q.filterMap (fun i => l[i - (k + 1)]?) := by
                        refine List.filterMap_congr (fun i hi => ?_)
                        have := hq i hi
                        rw [show i - k = i - (k + 1) + 1 by omega, List.getElem?_cons_succ]
                      rw [e]
                      exact ih (k + 1) q hs hq
                    cases q with
                    | nil => exact List.nil_sublist _
                    | cons a q =>
                      have ha := hq a (List.mem_cons_self ..)
                      rw [List.pairwise_cons] at hs
                      by_cases hak : a = k
                      · subst hak
                        rw [List.filterMap_cons, Nat.sub_self, List.getElem?_cons_zero]
                        refine List.Sublist.cons_cons _ (hrest q hs.2 (fun i hi => ?_))
                        have h1 := hs.1 i hi
                        have h2 := hq i (List.mem_cons_of_mem _ hi)
                        rw [List.length_cons] at h2
                        omega
                      · refine List.Sublist.cons _ (hrest (a :: q) (List.pairwise_cons.mpr hs) (fun i hi => ?_))
                        have h2 := hq i hi
                        rw [List.length_cons] at h2
                        rcases List.mem_cons.mp hi with rfl | hi
                        · omega
                        · have h1 := hs.1 i hi
                          omega
                have := hsub 0 all q hql (fun i hi => ⟨Nat.zero_le _, by simpa using hqb i hi⟩)
                rw [← h1]
                simpa using this
              · rw [if_pos hc.1, hel]
                omega
              · intro he
                rw [he] at hel
                simp at hel
                omega
            · rw [if_neg hc] at h1
              subst h1
              refine ⟨List.Sublist.refl _, ?_, hne, h2.symm⟩
              split_ifs with hm
              · omega
              · rfl

/-! ## Pictures of texture maps -/

section uv
open P3D.Uv
variable {K : Type} [Field K] [LinearOrder K] [IsStrictOrderedRing K] [FloorRing K]

/-- `centers_for_image`, `textures.py:1630-1647`, for one vertex: column and row, sampled from an image of its coordinates that is turned upside down. -/
def center (c : Uv.Cfg) (H W : Nat) (uv : K × K) : K × K :=
  (gridSample c ⟨H, W, fun _ j => (j : K)⟩ (uv.1 * 2 - 1) (uv.2 * 2 - 1), gridSample c ⟨H, W, fun i _ => (((H : Int) - 1 - i : Int) : K)⟩ (uv.1 * 2 - 1) (uv.2 * 2 - 1))

theorem lin_affine (a b x : K) : lin (fun i => a + b * (i : K)) x = a + b * x := by
  unfold lin
  push_cast
  ring

theorem lin_const' (a x : K) : lin (fun _ => a) x = a := by
  unfold lin
  ring

/-- Interpolation of a function of rows and columns that is affine in both gives it back. -/
theorem bilinear_affine (H W : Nat) (a b d : K) (g : Int → Int → K) (hg : ∀ i j, g i j = a + b * (i : K) + d * (j : K)) (x y : K) (hx : 0 ≤ x) (hx' : x ≤ (W : K) - 1) (hy : 0 ≤ y) (hy' : y ≤ (H : K) - 1) :
    bilinear ⟨H, W, g⟩ y x = a + b * y + d * x := by
  rw [bilinear_eq]
  have e1 : lin (fun i => lin (fun j => texel ⟨H, W, g⟩ i j) x) y = lin (fun i : Int => (a + d * x) + b * (i : K)) y := by
    refine lin_congr (lo := 0) (hi := (H : Int) - 1) (by simpa using hy) (by push_cast; exact hy') (fun i hi hi' => ?_)
    have e2 : lin (fun j => texel ⟨H, W, g⟩ i j) x = lin (fun j : Int => (a + b * (i : K)) + d * (j : K)) x := by
      refine lin_congr (lo := 0) (hi := (W : Int) - 1) (by simpa using hx) (by push_cast; exact hx') (fun j hj hj' => ?_)
      unfold texel
      rw [if_pos ⟨hi, by dsimp only; omega, hj, by dsimp only; omega⟩]
      exact hg i j
    rw [e2, lin_affine]
    ring
  rw [e1, lin_affine]
  ring

theorem unnorm_neg (align : Bool) (n : Int) (g : K) : (n : K) - 1 - unnorm align n g = unnorm align n (-g) := by
  unfold unnorm
  split_ifs <;> ring

/-- The circle of a vertex is drawn where the texture of the vertex is taken from: for coordinates inside the map, sampling the texture at the vertex is interpolating the map at the row and column of the circle. -/
theorem center_spec (c : Uv.Cfg) (hc : c.mode = .bilinear) (m : TexMap K) (uv : K × K) (hx : 0 ≤ unnorm c.align m.W (uv.1 * 2 - 1)) (hx' : unnorm c.align m.W (uv.1 * 2 - 1) ≤ (m.W : K) - 1)
    (hy : 0 ≤ unnorm c.align m.H (uv.2 * 2 - 1)) (hy' : unnorm c.align m.H (uv.2 * 2 - 1) ≤ (m.H : K) - 1) :
    center c m.H m.W uv = (unnorm c.align m.W (uv.1 * 2 - 1), unnorm c.align m.H (1 - uv.2 * 2)) ∧ sampleUV c m uv = bilinear m (center c m.H m.W uv).2 (center c m.H m.W uv).1 := by
  have hpx : padCoord c.align c.pad (m.W : Int) (unnorm c.align m.W (uv.1 * 2 - 1)) = unnorm c.align m.W (uv.1 * 2 - 1) := padCoord_id _ _ hx (by push_cast; exact hx')
  have hpy : padCoord c.align c.pad (m.H : Int) (unnorm c.align m.H (uv.2 * 2 - 1)) = unnorm c.align m.H (uv.2 * 2 - 1) := padCoord_id _ _ hy (by push_cast; exact hy')
  have hneg : unnorm c.align (m.H : Int) (1 - uv.2 * 2) = (m.H : K) - 1 - unnorm c.align m.H (uv.2 * 2 - 1) := by
    have := unnorm_neg c.align (m.H : Int) (uv.2 * 2 - 1)
    rw [show -(uv.2 * 2 - 1) = 1 - uv.2 * 2 by ring] at this
    rw [← this]
    push_cast
    ring
  have e1 : center c m.H m.W uv = (unnorm c.align m.W (uv.1 * 2 - 1), unnorm c.align m.H (1 - uv.2 * 2)) := by
    unfold center gridSample
    rw [hc]
    dsimp only
    rw [hpx, hpy, bilinear_affine m.H m.W 0 0 1 _ (fun i j => by ring) _ _ hx hx' hy hy',
      bilinear_affine m.H m.W ((m.H : K) - 1) (-1) 0 _ (fun i j => by push_cast; ring) _ _ hx hx' hy hy', hneg]
    refine Prod.ext ?_ ?_
    · dsimp only
      ring
    · dsimp only
      ring
  refine ⟨e1, ?_⟩
  rw [e1]
  unfold sampleUV gridSample
  rw [hc]
  dsimp only
  have l1 : lerp (-1) 1 uv.1 = uv.1 * 2 - 1 := by unfold lerp; ring
  have l2 : lerp 1 (-1) uv.2 = 1 - uv.2 * 2 := by unfold lerp; ring
  rw [l1, l2, hpx, padCoord_id c.align c.pad (by rw [hneg]; linarith) (by rw [hneg]; push_cast; linarith)]

/-- With aligned corners every vertex with coordinates between 0 and 1 is inside, and the corners of the square go to the corner texels. -/
theorem center_corners (c : Uv.Cfg) (hc : c.mode = .bilinear) (ha : c.align = true) (H W : Nat) (hH : 0 < H) (hW : 0 < W) (u v : K) (h0 : 0 ≤ u) (h1 : u ≤ 1) (h2 : 0 ≤ v) (h3 : v ≤ 1) :
    center c H W (u, v) = (u * ((W : K) - 1), (1 - v) * ((H : K) - 1)) := by
  have hW' : (1 : K) ≤ (W : K) := by exact_mod_cast hW
  have hH' : (1 : K) ≤ (H : K) := by exact_mod_cast hH
  have ex : unnorm c.align (W : Int) (u * 2 - 1) = u * ((W : K) - 1) := by
    unfold unnorm
    rw [ha, if_pos rfl]
    push_cast
    ring
  have ey : unnorm c.align (H : Int) (v * 2 - 1) = v * ((H : K) - 1) := by
    unfold unnorm
    rw [ha, if_pos rfl]
    push_cast
    ring
  have ez : unnorm c.align (H : Int) (1 - v * 2) = (1 - v) * ((H : K) - 1) := by
    unfold unnorm
    rw [ha, if_pos rfl]
    push_cast
    ring
  have := (center_spec c hc (⟨H, W, fun _ _ => 0⟩ : TexMap K) (u, v) (by dsimp only; rw [ex]; nlinarith) (by dsimp only; rw [ex]; nlinarith) (by dsimp only; rw [ey]; nlinarith) (by dsimp only; rw [ey]; nlinarith)).1
  dsimp only at this
  rw [this, ex, ez]

theorem lin_range {g : Int → K} {lo hi : K} (h : ∀ i, lo ≤ g i ∧ g i ≤ hi) (x : K) : lo ≤ lin g x ∧ lin g x ≤ hi := by
  have h0 := Int.floor_le x
  have h1 := Int.lt_floor_add_one x
  obtain ⟨a1, a2⟩ := h ⌊x⌋
  obtain ⟨b1, b2⟩ := h (⌊x⌋ + 1)
  unfold lin
  constructor <;> nlinarith

/-- Samples lie between the bounds of the texels and zero. -/
theorem sample_range (c : Uv.Cfg) (m : TexMap K) {lo hi : K} (h : ∀ i j, lo ≤ texel m i j ∧ texel m i j ≤ hi) (gx gy : K) : lo ≤ gridSample c m gx gy ∧ gridSample c m gx gy ≤ hi := by
  unfold gridSample
  cases c.mode with
  | nearest => exact h _ _
  | bilinear =>
    dsimp only
    rw [bilinear_eq]
    exact lin_range (fun i => lin_range (fun j => h i j) _) _

/-- Circles are never drawn outside of the image, whatever the coordinates: coordinates outside of the square are not seen, though circles are drawn without clipping to make them seen. -/
theorem center_inside (c : Uv.Cfg) (H W : Nat) (hH : 0 < H) (hW : 0 < W) (uv : K × K) :
    (0 ≤ (center c H W uv).1 ∧ (center c H W uv).1 ≤ (W : K) - 1) ∧ 0 ≤ (center c H W uv).2 ∧ (center c H W uv).2 ≤ (H : K) - 1 := by
  have hW' : (1 : K) ≤ (W : K) := by exact_mod_cast hW
  have hH' : (1 : K) ≤ (H : K) := by exact_mod_cast hH
  refine ⟨sample_range c _ (fun i j => ?_) _ _, sample_range c _ (fun i j => ?_) _ _⟩
  · unfold texel
    dsimp only
    split_ifs with h
    · obtain ⟨-, -, h1, h2⟩ := h
      have a : (0 : K) ≤ (j : K) := by exact_mod_cast h1
      have b : (j : K) ≤ (W : K) - 1 := by
        have : j ≤ (W : Int) - 1 := by omega
        have := (Int.cast_le (R := K)).mpr this
        push_cast at this
        exact this
      exact ⟨a, b⟩
    · exact ⟨le_refl _, by linarith⟩
  · unfold texel
    dsimp only
    split_ifs with h
    · obtain ⟨h1, h2, -, -⟩ := h
      have a : (0 : K) ≤ (i : K) := by exact_mod_cast h1
      have b : (i : K) ≤ (H : K) - 1 := by
        have : i ≤ (H : Int) - 1 := by omega
        have := (Int.cast_le (R := K)).mpr this
        push_cast at this
        exact this
      push_cast
      exact ⟨by linarith, by linarith⟩
    · exact ⟨le_refl _, by linarith⟩

/-- A texel as a byte, `texture_vis.py:98`: truncated, modulo 256. -/
def byte (x : K) : Int := ⌊x * 255⌋ % 256

/-- Texels between 0 and 1 are rounded down to bytes in their order; a texel that is a little brighter than 1 becomes black. -/
theorem byte_spec (x y : K) (h0 : 0 ≤ x) (h1 : x ≤ y) (h2 : y ≤ 1) : byte x ≤ byte y ∧ 0 ≤ byte x ∧ byte y ≤ 255 ∧ (byte x : K) ≤ x * 255 ∧ x * 255 < byte x + 1 ∧ byte (256 / 255 : K) = 0 := by
  have fx : 0 ≤ ⌊x * 255⌋ := Int.floor_nonneg.mpr (by linarith)
  have fy : ⌊y * 255⌋ ≤ 255 := by
    have : ((⌊y * 255⌋ : Int) : K) ≤ 255 := (Int.floor_le _).trans (by linarith)
    exact_mod_cast this
  have fxy : ⌊x * 255⌋ ≤ ⌊y * 255⌋ := Int.floor_le_floor (by linarith)
  have ex : byte x = ⌊x * 255⌋ := by unfold byte; omega
  have ey : byte y = ⌊y * 255⌋ := by unfold byte; omega
  rw [ex, ey]
  refine ⟨fxy, fx, fy, Int.floor_le _, Int.lt_floor_add_one _, ?_⟩
  unfold byte
  rw [show (256 / 255 : K) * 255 = ((256 : Int) : K) by norm_num, Int.floor_intCast]
  rfl

end uv

/-- Which vertices are drawn, `texture_vis.py:54-58` and `:103-107`: `perm` is the order in which numpy draws without replacement. -/
def drawn (n : Nat) (subsample : Option Nat) (perm : List Nat) : List Nat := match subsample with
  | none => List.range n
  | some k => if n ≤ k then List.range n else perm.take k

/-- All vertices, or as many different ones as allowed. -/
theorem drawn_spec (n : Nat) (subsample : Option Nat) (perm : List Nat) (hp : perm.Perm (List.range n)) :
    (drawn n subsample perm).Nodup ∧ (∀ i ∈ drawn n subsample perm, i < n) ∧ (drawn n subsample perm).length = min n (subsample.getD n) := by
  cases subsample with
  | none => simp [drawn, List.nodup_range]
  | some k =>
    unfold drawn
    dsimp only
    split_ifs with h
    · refine ⟨List.nodup_range, by simp, by simp [h]⟩
    · refine ⟨(hp.nodup_iff.mpr List.nodup_range).sublist (List.take_sublist _ _), ?_, ?_⟩
      · intro i hi
        exact List.mem_range.mp (hp.mem_iff.mp (List.mem_of_mem_take hi))
      · rw [List.length_take, hp.length_eq, List.length_range]
        simp only [Option.getD_some]
        omega

example : join "/data".toList "lists/a".toList = "/data/lists/a".toList := by decide
example : listsFile (fun p => p == "/d/apple/set_lists/set_lists_x.json".toList) ⟨"apple".toList, "x".toList, [], none, "/d".toList, [], false, false, false, [], [], [], 0⟩ "set_lists".toList =
    .ok (some "/d/apple/set_lists/set_lists_x.json".toList) := by decide
example : cloudFrames ⟨true, true, false, true, false⟩ ["a", "b", "a", "a"] (some "a") 2 [2, 0, 1] = .ok ([0, 3], false) := by
  simp [cloudFrames, List.range_succ, List.mergeSort, List.MergeSort.Internal.splitInTwo]
example : extendOne (fun _ : Nat => [10, 20, 30]) 2 [2, 0, 1] [(1, 5)] = .ok [(1, 5), (1, 30), (1, 10)] := by decide

end P3D.SqlProv
