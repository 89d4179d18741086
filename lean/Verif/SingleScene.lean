/-
Datasets of a single scene, their evaluation batches, the loaders made of them, and the depth-based baseline model.

* `implicitron/dataset/single_sequence_dataset.py:34-86` (`SingleSceneDataset`), `89-174` (`SingleSceneDatasetMapProviderBase`)
* `implicitron/dataset/train_eval_data_loader_provider.py:98-190` (`TrainEvalDataLoaderMapProvider`)
* `implicitron/dataset/data_source.py:88-107` (the cache of training cameras)
* `implicitron/models/model_dbir.py:46-153` (`ModelDBIR.forward`)

Images, masks and cameras are opaque; the permutations of numpy and of torch are arguments.  The loaders only need which sampler is used; samplers are in `Verif.Loaders` and `Verif.SceneSampler`.
Simplifications: split indices are valid (they come from the loader of the scene), `n_known_frames_for_test` and `max_points` are numbers that are not negative (`max_points = 0` stands for the documented
default), the renderer is a function of camera and cloud (`Verif.PclTools`).
-/
import Mathlib.Data.List.Basic
import Mathlib.Data.List.Range
import Mathlib.Data.List.Nodup
import Mathlib.Tactic.Common

set_option linter.unusedSectionVars false

namespace P3D.SingleScene

variable {I M P : Type}

/-- What can go wrong. -/
inductive Err where
  | index
  | value
  | runtime
  deriving DecidableEq, Repr

/-! ## Datasets -/

/-- `SingleSceneDataset`: images, masks, cameras, which frames are known, evaluation batches. -/
structure DS (I M P : Type) where
  images : List I
  fg : Option (List M)
  poses : List P
  known : List Bool
  batches : Option (List (List Nat))

/-- A frame as returned by `__getitem__` (the fields that depend on the index). -/
structure Frame (I M P : Type) where
  number : Int
  image : I
  pose : P
  known : Bool
  fg : Option M
  deriving DecidableEq, Repr

/-- Python indexing of a list or of the first dimension of a tensor. -/
def pyGet {A : Type} (l : List A) (i : Int) : Except Err A :=
  match (if 0 ≤ i then l[i.toNat]? else if -i ≤ l.length then l[l.length - (-i).toNat]? else none) with
  | some x => .ok x
  | none => .error .index

/-- The mask of a frame, `single_sequence_dataset.py:67-69`. -/
def pyGetOpt {A : Type} (l : Option (List A)) (i : Int) : Except Err (Option A) :=
  match l with
  | none => .ok none
  | some l => (pyGet l i).map some

/-- `__getitem__`, `single_sequence_dataset.py:61-83`. -/
def DS.get (d : DS I M P) (i : Int) : Except Err (Frame I M P) :=
  if (d.poses.length : Int) ≤ i then .error .index
  else do
    let image ← pyGet d.images i
    let pose ← pyGet d.poses i
    let known ← pyGet d.known i
    let fg ← pyGetOpt d.fg i
    pure ⟨i, image, pose, known, fg⟩

/-- The scene: its frames and the three splits. -/
structure Scene (I M P : Type) where
  images : Nat → I
  fg : Option (Nat → M)
  poses : Nat → P
  splits : Nat → List Nat
  nKnown : Option Nat

/-- The evaluation batches, `single_sequence_dataset.py:136-148`: `perm i` is the permutation drawn for batch `i`. -/
def evalBatches (n k : Nat) (perm : Nat → List Nat) : List (List Nat) :=
  (List.range n).map (fun i => i :: ((perm i).take k).map (· + n))

/-- `_get_dataset`, `single_sequence_dataset.py:121-162`. -/
def Scene.dataset (s : Scene I M P) (idx : Nat) (known setEval : Bool) (perm : Nat → List Nat) : DS I M P :=
  let split := s.splits idx
  let fg := s.fg.map (fun f => split.map f)
  match (if idx = 0 then none else s.nKnown) with
  | none => ⟨split.map s.images, fg, split.map s.poses, split.map (fun _ => known), if setEval then some ((List.range split.length).map (fun i => [i])) else none⟩
  | some k =>
    let all := split ++ s.splits 0
    ⟨all.map s.images, fg, all.map s.poses, split.map (fun _ => known) ++ (s.splits 0).map (fun _ => true), if setEval then some (evalBatches split.length k perm) else none⟩

/-- `get_dataset_map`, `single_sequence_dataset.py:164-169`. -/
def Scene.trainSet (s : Scene I M P) : DS I M P := s.dataset 0 true false (fun _ => [])
def Scene.valSet (s : Scene I M P) : DS I M P := s.dataset 1 false false (fun _ => [])
def Scene.testSet (s : Scene I M P) (perm : Nat → List Nat) : DS I M P := s.dataset 2 false true perm

/-- `sequence_frames_in_order`, `single_sequence_dataset.py:54-59`, with a filter on the kinds of frames. -/
def DS.inOrder (d : DS I M P) (filter : Option (Bool → Bool)) : List (Nat × Nat) :=
  ((List.range d.poses.length).filter (fun i => match filter with | none => true | some f => f (d.known.getD i false))).map (fun i => (i, i))

theorem pyGet_nat {A : Type} {l : List A} {i : Nat} {x : A} (h : l[i]? = some x) : pyGet l i = .ok x := by
  unfold pyGet
  rw [if_pos (Int.natCast_nonneg i), Int.toNat_natCast, h]

theorem pyGet_neg {A : Type} {l : List A} {i : Nat} {x : A} (h1 : 0 < i) (h2 : i ≤ l.length) (h : l[l.length - i]? = some x) : pyGet l (-(i : Int)) = .ok x := by
  unfold pyGet
  rw [if_neg (by omega), if_pos (by omega), Int.neg_neg, Int.toNat_natCast, h]

theorem pyGet_out {A : Type} {l : List A} {i : Nat} (h : l.length ≤ i) : pyGet l i = .error .index := by
  unfold pyGet
  rw [if_pos (Int.natCast_nonneg i), Int.toNat_natCast, List.getElem?_eq_none h]

theorem pyGetOpt_map {A : Type} (f : Option (Nat → A)) {l : List Nat} {i x : Nat} (h : l[i]? = some x) :
    pyGetOpt (f.map (fun g => l.map g)) i = .ok (f.map (fun g => g x)) := by
  cases f with
  | none => rfl
  | some f =>
    show (pyGet (l.map f) i).map some = _
    rw [pyGet_nat (x := f x) (by rw [List.getElem?_map, h]; rfl)]
    rfl

/-- Frame `j` of the scene as frame `i` of a dataset. -/
def Scene.frame (s : Scene I M P) (i : Int) (known : Bool) (j : Nat) : Frame I M P := ⟨i, s.images j, s.poses j, known, s.fg.map (fun g => g j)⟩

/-- Frames of the split itself: image, camera and mask of the same frame of the scene, for every split and setting. -/
theorem dataset_own (s : Scene I M P) (idx : Nat) (known setEval : Bool) (perm : Nat → List Nat) {i j : Nat} (h : (s.splits idx)[i]? = some j) :
    (s.dataset idx known setEval perm).get i = .ok (s.frame i known j) := by
  obtain ⟨hi, -⟩ := List.getElem?_eq_some_iff.mp h
  have hm : ∀ {A : Type} (f : Nat → A) (r : List A), ((s.splits idx).map f ++ r)[i]? = some (f j) := by
    intro A f r
    rw [List.getElem?_append_left (by simpa using hi), List.getElem?_map, h]
    rfl
  have hm' : ∀ {A : Type} (f : Nat → A), ((s.splits idx).map f)[i]? = some (f j) := by
    intro A f
    rw [List.getElem?_map, h]
    rfl
  unfold Scene.dataset
  dsimp only
  cases (if idx = 0 then none else s.nKnown) with
  | none =>
    unfold DS.get
    dsimp only
    rw [if_neg (by simp; omega), pyGet_nat (hm' s.images), pyGet_nat (hm' s.poses), pyGet_nat (hm' fun _ => known), pyGetOpt_map s.fg h]
    rfl
  | some k =>
    unfold DS.get
    dsimp only
    rw [List.map_append, List.map_append, if_neg (by simp; omega), pyGet_nat (hm s.images _), pyGet_nat (hm s.poses _), pyGet_nat (hm (fun _ => known) _), pyGetOpt_map s.fg h]
    rfl

/-- The training set: the frames of the first split, known, without batches, and nothing else. -/
theorem trainSet_spec (s : Scene I M P) : s.trainSet.poses.length = (s.splits 0).length ∧ s.trainSet.batches = none ∧
    (∀ i j, (s.splits 0)[i]? = some j → s.trainSet.get (i : Nat) = .ok (s.frame i true j)) ∧
    ∀ i : Nat, (s.splits 0).length ≤ i → s.trainSet.get i = .error .index := by
  refine ⟨by simp [Scene.trainSet, Scene.dataset], rfl, fun i j h => dataset_own s 0 true false _ h, ?_⟩
  intro i h
  unfold DS.get
  rw [if_pos (by simpa [Scene.trainSet, Scene.dataset] using h)]

/-- Without `n_known_frames_for_test` every test batch is one unknown frame, and each frame is in one batch. -/
theorem testSet_single (s : Scene I M P) (perm : Nat → List Nat) (h : s.nKnown = none) :
    (s.testSet perm).batches = some ((List.range (s.splits 2).length).map (fun i => [i])) ∧ (s.testSet perm).poses.length = (s.splits 2).length := by
  simp [Scene.testSet, Scene.dataset, h]

/-- With it the sets of the second and third split contain the training frames after their own, known; their masks are missing. -/
theorem extended (s : Scene I M P) (idx : Nat) (hidx : idx ≠ 0) (setEval : Bool) (perm : Nat → List Nat) {k : Nat} (hk : s.nKnown = some k) {i j : Nat} (h : (s.splits 0)[i]? = some j) :
    (s.dataset idx false setEval perm).poses.length = (s.splits idx).length + (s.splits 0).length ∧
    (s.fg = none → (s.dataset idx false setEval perm).get ((s.splits idx).length + i : Nat) = .ok (s.frame ((s.splits idx).length + i : Nat) true j)) ∧
    (s.fg ≠ none → (s.dataset idx false setEval perm).get ((s.splits idx).length + i : Nat) = .error .index) := by
  obtain ⟨hi, -⟩ := List.getElem?_eq_some_iff.mp h
  have hm : ∀ {A : Type} (f g : Nat → A), ((s.splits idx).map f ++ (s.splits 0).map g)[(s.splits idx).length + i]? = some (g j) := by
    intro A f g
    rw [List.getElem?_append_right (by simp), List.length_map, Nat.add_sub_cancel_left, List.getElem?_map, h]
    rfl
  have hd : s.dataset idx false setEval perm = ⟨(s.splits idx ++ s.splits 0).map s.images, s.fg.map (fun f => (s.splits idx).map f), (s.splits idx ++ s.splits 0).map s.poses,
      (s.splits idx).map (fun _ => false) ++ (s.splits 0).map (fun _ => true), if setEval then some (evalBatches (s.splits idx).length k perm) else none⟩ := by
    unfold Scene.dataset
    dsimp only
    rw [if_neg hidx, hk]
  rw [hd]
  refine ⟨by simp, ?_, ?_⟩
  · intro hf
    unfold DS.get
    dsimp only
    rw [List.map_append, List.map_append, if_neg (by simp; omega), pyGet_nat (hm s.images s.images), pyGet_nat (hm s.poses s.poses), pyGet_nat (hm (fun _ => false) (fun _ => true)), hf]
    simp [pyGetOpt, Scene.frame, hf, bind, Except.bind, pure, Except.pure]
  · intro hf
    obtain ⟨g, hg⟩ := Option.ne_none_iff_exists'.mp hf
    unfold DS.get
    dsimp only
    rw [List.map_append, List.map_append, if_neg (by simp; omega), pyGet_nat (hm s.images s.images), pyGet_nat (hm s.poses s.poses), pyGet_nat (hm (fun _ => false) (fun _ => true)), hg]
    have : pyGetOpt (Option.map (fun f => List.map f (s.splits idx)) (some g)) (((s.splits idx).length + i : Nat) : Int) = .error .index := by
      show (pyGet ((s.splits idx).map g) _).map some = _
      rw [pyGet_out (by simp)]
      rfl
    rw [this]
    rfl

/-- Negative indices count from the end of each list: the last frame of an extended set comes with the mask of the last frame of the split, another frame. -/
theorem wrong_mask (s : Scene I M P) (idx : Nat) (hidx : idx ≠ 0) (perm : Nat → List Nat) {k : Nat} (hk : s.nKnown = some k) {g : Nat → M} (hg : s.fg = some g) {j t : Nat}
    (hj : (s.splits 0).getLast? = some j) (ht : (s.splits idx).getLast? = some t) :
    (s.dataset idx false false perm).get (-1) = .ok ⟨-1, s.images j, s.poses j, true, some (g t)⟩ := by
  obtain ⟨l0, h0⟩ := List.getLast?_eq_some_iff.mp hj
  obtain ⟨l1, h1⟩ := List.getLast?_eq_some_iff.mp ht
  have one : ∀ {A : Type} (l : List A) (x : A), pyGet (l ++ [x]) (-1) = .ok x := by
    intro A l x
    exact pyGet_neg (i := 1) (by omega) (by simp) (by simp)
  unfold Scene.dataset
  dsimp only
  rw [if_neg hidx, hk, hg, h0, h1]
  unfold DS.get
  dsimp only
  rw [if_neg (by simp; omega)]
  simp only [List.map_append, List.map_cons, List.map_nil, ← List.append_assoc, one, pyGetOpt, Option.map_some]
  rfl

/-! ## Evaluation batches -/

/-- A test batch: first the frame to predict, then known frames, different from each other, as many as asked for or all. -/
theorem batch_spec (s : Scene I M P) (perm : Nat → List Nat) {k : Nat} (hk : s.nKnown = some k) (hp : ∀ i, (perm i).Perm (List.range (s.splits 0).length)) {i : Nat} (hi : i < (s.splits 2).length) :
    ∃ bs b, (s.testSet perm).batches = some bs ∧ bs.length = (s.splits 2).length ∧ bs[i]? = some b ∧ b.head? = some i ∧ b.Nodup ∧ b.length = 1 + min k (s.splits 0).length ∧
      (∀ x ∈ b, x < (s.testSet perm).poses.length) ∧ ∀ x ∈ b.tail, ∃ y, x = (s.splits 2).length + y ∧ y < (s.splits 0).length := by
  have hd : (s.testSet perm).batches = some (evalBatches (s.splits 2).length k perm) ∧ (s.testSet perm).poses.length = (s.splits 2).length + (s.splits 0).length := by
    unfold Scene.testSet Scene.dataset
    dsimp only
    rw [if_neg (by decide), hk]
    simp
  have htail : ∀ x ∈ ((perm i).take k).map (· + (s.splits 2).length), ∃ y, x = (s.splits 2).length + y ∧ y < (s.splits 0).length := by
    intro x hx
    obtain ⟨y, hy, rfl⟩ := List.mem_map.mp hx
    have := (hp i).mem_iff.mp (List.mem_of_mem_take hy)
    rw [List.mem_range] at this
    exact ⟨y, Nat.add_comm _ _, this⟩
  refine ⟨_, i :: ((perm i).take k).map (· + (s.splits 2).length), hd.1, by simp [evalBatches], ?_, rfl, ?_, ?_, ?_, ?_⟩
  · unfold evalBatches
    rw [List.getElem?_map, List.getElem?_range hi]
    rfl
  · refine List.nodup_cons.mpr ⟨fun hm => ?_, ?_⟩
    · obtain ⟨y, hy, -⟩ := htail i hm
      omega
    · refine List.Nodup.map (fun a b h => by simpa using h) ?_
      exact List.Nodup.sublist (List.take_sublist _ _) ((hp i).nodup_iff.mpr List.nodup_range)
  · rw [List.length_cons, List.length_map, List.length_take, (hp i).length_eq, List.length_range, Nat.add_comm]
  · rw [hd.2]
    intro x hx
    rcases List.mem_cons.mp hx with rfl | hx
    · omega
    · obtain ⟨y, rfl, hy⟩ := htail x hx
      omega
  · exact htail

/-- Asking for fewer known frames gives beginnings of the same batches, as the comment in the code promises. -/
theorem batches_prefix (n k k' : Nat) (h : k ≤ k') (perm : Nat → List Nat) (i : Nat) (b b' : List Nat) (hb : (evalBatches n k perm)[i]? = some b) (hb' : (evalBatches n k' perm)[i]? = some b') :
    b <+: b' := by
  unfold evalBatches at hb hb'
  rw [List.getElem?_map] at hb hb'
  by_cases hi : i < n
  · rw [List.getElem?_range hi] at hb hb'
    simp only [Option.map_some, Option.some.injEq] at hb hb'
    rw [← hb, ← hb', List.prefix_cons_inj]
    exact List.IsPrefix.map _ (List.take_prefix_take_left h)
  · rw [List.getElem?_eq_none (by simpa using hi)] at hb
    cases hb

/-- The frames of a batch. -/
def DS.load (d : DS I M P) (b : List Nat) : Except Err (List (Frame I M P)) := b.mapM (fun i : Nat => d.get (i : Int))

theorem mapM_error {A B : Type} (f : A → Except Err B) (l : List A) (x : A) (hx : x ∈ l) (e : Err) (he : f x = .error e) (hall : ∀ y ∈ l, (∃ z, f y = .ok z) ∨ f y = .error e) :
    l.mapM f = .error e := by
  induction l with
  | nil => cases hx
  | cons a l ih =>
    rw [List.mapM_cons]
    rcases hall a (List.mem_cons_self ..) with ⟨z, hz⟩ | hz
    · rw [hz]
      rcases List.mem_cons.mp hx with rfl | hx
      · rw [he] at hz
        cases hz
      · have := ih hx (fun y hy => hall y (List.mem_cons_of_mem _ hy))
        simp only [bind, Except.bind, this]
    · rw [hz]
      rfl

/-- When the scene has masks (as the Blender scenes do), no test batch with a known frame can be loaded. -/
theorem batch_fails (s : Scene I M P) (perm : Nat → List Nat) {k : Nat} (hk : s.nKnown = some (k + 1)) (hf : s.fg ≠ none) (hp : ∀ i, (perm i).Perm (List.range (s.splits 0).length))
    (h0 : s.splits 0 ≠ []) {i : Nat} (hi : i < (s.splits 2).length) :
    ∃ bs b, (s.testSet perm).batches = some bs ∧ bs[i]? = some b ∧ (s.testSet perm).load b = .error .index := by
  obtain ⟨bs, b, h1, -, h3, h4, -, h6, -, h8⟩ := batch_spec s perm hk hp hi
  refine ⟨bs, b, h1, h3, ?_⟩
  have hpos : 0 < (s.splits 0).length := List.length_pos_iff.mpr h0
  obtain ⟨a, t, rfl⟩ : ∃ a t, b = a :: t := by
    cases b with
    | nil => cases h4
    | cons a t => exact ⟨a, t, rfl⟩
  simp only [List.head?_cons, Option.some.injEq] at h4
  subst h4
  simp only [List.tail_cons] at h8
  have bad : ∀ x ∈ t, (s.testSet perm).get (x : Nat) = .error .index := by
    intro x hx
    obtain ⟨y, rfl, hy⟩ := h8 x hx
    exact (extended s 2 (by decide) true perm hk (List.getElem?_eq_getElem hy)).2.2 hf
  have hne : t ≠ [] := by
    rintro rfl
    rw [List.length_cons, List.length_nil] at h6
    omega
  obtain ⟨x, hx⟩ := List.exists_mem_of_ne_nil t hne
  refine mapM_error _ _ x (List.mem_cons_of_mem _ hx) .index (bad x hx) ?_
  intro y hy
  rcases List.mem_cons.mp hy with rfl | hy
  · exact Or.inl ⟨_, dataset_own s 2 false true perm (List.getElem?_eq_getElem hi)⟩
  · exact Or.inr (bad y hy)

/-- Without masks the batches load: an unknown frame first, then known ones. -/
theorem batch_loads (s : Scene I M P) (perm : Nat → List Nat) {k : Nat} (hk : s.nKnown = some k) (hf : s.fg = none) {i y : Nat} (hi : i < (s.splits 2).length) (hy : y < (s.splits 0).length) :
    (s.testSet perm).get (i : Nat) = .ok (s.frame i false ((s.splits 2)[i])) ∧
    (s.testSet perm).get ((s.splits 2).length + y : Nat) = .ok (s.frame ((s.splits 2).length + y : Nat) true ((s.splits 0)[y])) :=
  ⟨dataset_own s 2 false true perm (List.getElem?_eq_getElem hi), (extended s 2 (by decide) true perm hk (List.getElem?_eq_getElem hy)).2.1 hf⟩

/-- Frames in order: all of the wanted kind, each once, ascending; the name of the sequence plays no role. -/
theorem inOrder_spec (d : DS I M P) (f : Option (Bool → Bool)) (i j : Nat) :
    (i, j) ∈ d.inOrder f ↔ i = j ∧ i < d.poses.length ∧ ∀ g, f = some g → g (d.known.getD i false) = true := by
  unfold DS.inOrder
  simp only [List.mem_map, List.mem_filter, List.mem_range, Prod.mk.injEq]
  constructor
  · rintro ⟨a, ⟨h1, h2⟩, rfl, rfl⟩
    refine ⟨rfl, h1, ?_⟩
    rintro g rfl
    exact h2
  · rintro ⟨rfl, h1, h2⟩
    refine ⟨i, ⟨h1, ?_⟩, rfl, rfl⟩
    cases f with
    | none => rfl
    | some g => exact h2 g rfl

/-- A scene of four frames, the first two for training, two test frames, one known frame per batch. -/
def exScene (fg : Option (Nat → Nat)) : Scene Nat Nat Nat := ⟨fun i => 10 * i, fg, fun i => 100 * i, fun k => if k = 0 then [0, 1] else [2, 3], some 1⟩

example : ((exScene none).testSet (fun _ => [1, 0])).batches = some [[0, 3], [1, 3]] := rfl
example : ((exScene none).testSet (fun _ => [1, 0])).load [0, 3] = .ok [⟨0, 20, 200, false, none⟩, ⟨3, 10, 100, true, none⟩] := rfl
example : ((exScene (some id)).testSet (fun _ => [1, 0])).load [0, 3] = .error .index := rfl

/-! ## Loaders -/

/-- The loader of a dataset. -/
inductive Loader where
  | none
  /-- batches given by the dataset -/
  | eval
  /-- `SceneBatchSampler` with this many batches -/
  | scenes (num : Nat)
  /-- one frame per batch -/
  | simple
  /-- conditioned on the training set -/
  | train
  deriving DecidableEq, Repr

/-- `_make_generic_data_loader`, `train_eval_data_loader_provider.py:141-184`; `len` is the length of the dataset, if there is one. -/
def generic (len : Option Nat) (num : Int) (options : List Nat) (batch : Nat) : Loader :=
  match len with
  | .none => .none
  | some n => if 0 < options.length then .scenes (if num ≤ 0 then n else num.toNat) else if batch = 1 then .simple else .train

/-- The test loader of `get_data_loader_map`, `train_eval_data_loader_provider.py:117-124`. -/
def testLoader (len : Option Nat) (hasBatches : Bool) (num : Int) (options : List Nat) (batch : Nat) : Loader :=
  match len with
  | .none => .none
  | some n => if hasBatches then .eval else generic (some n) num options batch

/-- Given batches are used for testing whatever the other settings; otherwise the test set is treated as the others are. -/
theorem testLoader_spec (n : Nat) (num : Int) (options : List Nat) (batch : Nat) :
    testLoader (some n) true num options batch = .eval ∧ testLoader (some n) false num options batch = generic (some n) num options batch ∧
    ∀ b, testLoader .none b num options batch = .none := ⟨rfl, rfl, fun _ => rfl⟩

/-- The kinds of loader: with numbers of images per sequence the scene sampler, over as many batches as the dataset has frames unless told otherwise; without, single frames exactly for batches of one. -/
theorem generic_spec (n : Nat) (num : Int) (options : List Nat) (batch : Nat) :
    (options ≠ [] → 0 < num → generic (some n) num options batch = .scenes num.toNat) ∧ (options ≠ [] → num ≤ 0 → generic (some n) num options batch = .scenes n) ∧
    (options = [] → (generic (some n) num options batch = .simple ↔ batch = 1) ∧ (generic (some n) num options batch = .train ↔ batch ≠ 1)) := by
  refine ⟨fun h hn => ?_, fun h hn => ?_, ?_⟩
  · unfold generic
    dsimp only
    rw [if_pos (List.length_pos_iff.mpr h), if_neg (by omega)]
  · unfold generic
    dsimp only
    rw [if_pos (List.length_pos_iff.mpr h), if_pos hn]
  · rintro rfl
    unfold generic
    by_cases hb : batch = 1 <;> simp [hb]

/-! ## Training cameras -/

/-- `all_train_cameras`, `data_source.py:99-107`: the cache and the result; the provider is asked with a counter. -/
def allTrain {C : Type} (provider : Nat → Option C) (cache : Option (Option C)) (calls : Nat) : Option C × Option (Option C) × Nat :=
  match cache with
  | none => (provider calls, some (provider calls), calls + 1)
  | some c => (c, some c, calls)

/-- A sequence of accesses. -/
def accesses {C : Type} (provider : Nat → Option C) : Nat → Option (Option C) → Nat → List (Option C) × Nat
  | 0, _, calls => ([], calls)
  | m + 1, cache, calls =>
    let r := allTrain provider cache calls
    let rest := accesses provider m r.2.1 r.2.2
    (r.1 :: rest.1, rest.2)

theorem accesses_cached {C : Type} (provider : Nat → Option C) (m : Nat) (c : Option C) (calls : Nat) : accesses provider m (some c) calls = (List.replicate m c, calls) := by
  induction m with
  | zero => rfl
  | succ m ih =>
    unfold accesses
    simp only [allTrain, ih, List.replicate_succ]

/-- However often they are asked for, the cameras are those of the first time and the provider is asked once, also when there are none. -/
theorem accesses_once {C : Type} (provider : Nat → Option C) (m : Nat) : accesses provider (m + 1) none 0 = (List.replicate (m + 1) (provider 0), 1) := by
  unfold accesses
  simp only [allTrain, accesses_cached, List.replicate_succ]

/-! ## The depth-based model -/

section dbir
variable {Cam Pt Ren : Type}

/-- `ModelDBIR.forward`, `model_dbir.py:82-153`: `cloud` makes the points of the known views, with features; `perm` is the permutation of the subsampling; `render` renders into a camera. -/
def dbir (hasImage hasMask hasDepth : Bool) (known : List Bool) (cams : List Cam) (cloud : List Nat → List Pt) (maxPoints : Nat) (perm : List Nat) (render : Cam → List Pt → Ren) :
    Except Err (List Ren × List Pt) :=
  if hasImage = false ∨ hasMask = false ∨ hasDepth = false then .error .value
  else
    let src := (List.range known.length).filter (fun i => known.getD i false)
    let tgt := (List.range known.length).filter (fun i => !known.getD i false)
    let pts := cloud src
    let pts := if 0 < maxPoints ∧ maxPoints < pts.length then (perm.take maxPoints).filterMap (fun i => pts[i]?) else pts
    if tgt = [] then .error .runtime
    else .ok ((tgt.filterMap (fun i => cams[i]?)).map (fun c => render c pts), pts)

/-- The result: one render per target, in the order of the batch, all of the same points, which come from the known views only. -/
theorem dbir_ok (known : List Bool) (cams : List Cam) (hc : cams.length = known.length) (cloud : List Nat → List Pt) (maxPoints : Nat) (perm : List Nat) (render : Cam → List Pt → Ren)
    (hp : perm.Perm (List.range (cloud ((List.range known.length).filter (fun i => known.getD i false))).length)) (ht : false ∈ known) :
    ∃ rs pts, dbir true true true known cams cloud maxPoints perm render = .ok (rs, pts) ∧
      rs = ((cams.zip known).filter (fun ck => !ck.2)).map (fun ck => render ck.1 pts) ∧
      pts.length = (if maxPoints = 0 then (cloud ((List.range known.length).filter (fun i => known.getD i false))).length
        else min maxPoints (cloud ((List.range known.length).filter (fun i => known.getD i false))).length) ∧
      ∀ p ∈ pts, p ∈ cloud ((List.range known.length).filter (fun i => known.getD i false)) := by
  set src := (List.range known.length).filter (fun i => known.getD i false) with hsrc
  have htgt : (List.range known.length).filter (fun i => !known.getD i false) ≠ [] := by
    obtain ⟨i, hi, he⟩ := List.getElem_of_mem ht
    intro h
    have : i ∈ (List.range known.length).filter (fun i => !known.getD i false) := by
      rw [List.mem_filter, List.mem_range]
      refine ⟨hi, ?_⟩
      simp [List.getD, List.getElem?_eq_getElem hi, he]
    rw [h] at this
    cases this
  unfold dbir
  rw [if_neg (by simp)]
  dsimp only
  rw [if_neg htgt, ← hsrc]
  refine ⟨_, _, rfl, ?_, ?_, ?_⟩
  · have key : ∀ (n : Nat) (ks : List Bool) (cs : List Cam), ks.length = n → cs.length = n →
        ((List.range n).filter (fun i => !ks.getD i false)).filterMap (fun i => cs[i]?) = ((cs.zip ks).filter (fun ck => !ck.2)).map Prod.fst := by
      intro n
      induction n with
      | zero =>
        intro ks cs hk hcs
        rw [List.length_eq_zero_iff.mp hcs]
        rfl
      | succ n ih =>
        intro ks cs hk hcs
        obtain ⟨k, ks, rfl⟩ : ∃ k t, ks = k :: t := by
          cases ks with
          | nil => cases hk
          | cons a t => exact ⟨a, t, rfl⟩
        obtain ⟨c, cs, rfl⟩ : ∃ k t, cs = k :: t := by
          cases cs with
          | nil => cases hcs
          | cons a t => exact ⟨a, t, rfl⟩
        have := ih ks cs (by simpa using hk) (by simpa using hcs)
        rw [List.range_succ_eq_map, List.filter_cons, List.filter_map, List.zip_cons_cons, List.filter_cons]
        have e1 : ((fun i => !(k :: ks).getD i false) ∘ Nat.succ) = (fun i => !ks.getD i false) := rfl
        rw [e1]
        have e2 : ∀ l : List Nat, (l.map Nat.succ).filterMap (fun i => (c :: cs)[i]?) = l.filterMap (fun i => cs[i]?) := by
          intro l
          rw [List.filterMap_map]
          rfl
        cases k
        · simp only [List.getD_cons_zero, Bool.not_false, if_true, List.filterMap_cons, List.getElem?_cons_zero, e2, this, List.map_cons]
        · simp only [List.getD_cons_zero, Bool.not_true, Bool.false_eq_true, if_false, e2, this]
    rw [key known.length known cams rfl hc, List.map_map]
    rfl
  · split_ifs with h1 h2 h2
    · omega
    · have hl : ∀ l : List Nat, (∀ i ∈ l, i < (cloud src).length) → (l.filterMap (fun i => (cloud src)[i]?)).length = l.length := by
        intro l hl
        induction l with
        | nil => rfl
        | cons a l ih =>
          rw [List.filterMap_cons, List.getElem?_eq_getElem (hl a (List.mem_cons_self ..))]
          simp [ih (fun i hi => hl i (List.mem_cons_of_mem _ hi))]
      rw [hl _ (fun i hi => List.mem_range.mp (hp.mem_iff.mp (List.mem_of_mem_take hi))), List.length_take, hp.length_eq, List.length_range]
    · rfl
    · omega
  · intro p hp'
    split_ifs at hp' with h1
    · obtain ⟨i, -, hi⟩ := List.mem_filterMap.mp hp'
      exact List.mem_of_getElem? hi
    · exact hp'

/-- Points that are not more than allowed are kept in their order, none is drawn. -/
theorem dbir_keeps (known : List Bool) (cams : List Cam) (cloud : List Nat → List Pt) (maxPoints : Nat) (perm : List Nat) (render : Cam → List Pt → Ren) (rs : List Ren) (pts : List Pt)
    (hd : dbir true true true known cams cloud maxPoints perm render = .ok (rs, pts)) (hm : maxPoints = 0 ∨ (cloud ((List.range known.length).filter (fun i => known.getD i false))).length ≤ maxPoints) :
    pts = cloud ((List.range known.length).filter (fun i => known.getD i false)) := by
  unfold dbir at hd
  rw [if_neg (by simp)] at hd
  dsimp only at hd
  split_ifs at hd with h1 h2
  · exact absurd h2 (by omega)
  · simp only [Except.ok.injEq, Prod.mk.injEq] at hd
    exact hd.2.symm

/-- No target in the batch is an error (`torch.cat` of nothing); so are missing images, masks or depths. -/
theorem dbir_error (known : List Bool) (cams : List Cam) (cloud : List Nat → List Pt) (maxPoints : Nat) (perm : List Nat) (render : Cam → List Pt → Ren) :
    (false ∉ known → dbir true true true known cams cloud maxPoints perm render = .error .runtime) ∧
    ∀ a b c, (a && b && c) = false → dbir a b c known cams cloud maxPoints perm render = .error .value := by
  constructor
  · intro h
    have : (List.range known.length).filter (fun i => !known.getD i false) = [] := by
      rw [List.filter_eq_nil_iff]
      intro i hi
      rw [List.mem_range] at hi
      have hm := List.getElem_mem hi
      have : known[i] = true := by
        cases hk : known[i]
        · rw [hk] at hm
          exact absurd hm h
        · rfl
      simp [List.getD, List.getElem?_eq_getElem hi, this]
    unfold dbir
    rw [if_neg (by simp)]
    dsimp only
    rw [if_pos this]
  · intro a b c h
    unfold dbir
    rw [if_pos (by cases a <;> cases b <;> cases c <;> simp_all)]

example : dbir true true true [false, true, false] ["a", "b", "c"] (fun l => l.map (· * 10)) 0 [0] (fun c (p : List Nat) => (c, p)) = .ok ([("a", [10]), ("c", [10])], [10]) := rfl

end dbir

end P3D.SingleScene
