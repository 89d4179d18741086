/-
`io/pluggable.py`, `io/pluggable_formats.py` and the format classes of `io/obj_io.py`, `io/off_io.py` and `io/ply_io.py`.

The contents of files and the parsers are abstract here (C39, C52, C53, C65 and C70 are about them): an interpreter is a pair of
functions on a file system, a built-in format is a test of the file name and a pair of an encoder and a decoder.  `str.lower`
changes ASCII letters only.  Streams are paths with a number.
-/
import Mathlib.Data.List.Basic
import Mathlib.Tactic.Common

set_option linter.unusedSectionVars false

namespace P3D.PluggableIo

/-! ## Model -/

abbrev Str := List Char

inductive Err where
  | valueError
  | notImplemented
  | fileNotFound
  | other (n : Nat)
deriving DecidableEq

/-- `PathOrStr` or a stream.  A `pathlib.Path` is given by its parent, with a final `/` if not empty, and its `name`. -/
inductive Loc where
  | str (s : Str)
  | path (parent name : Str)
  | stream (n : Nat)
deriving DecidableEq

def lower (s : Str) : Str := s.map Char.toLower

/-- `PurePath.suffix`: from the last dot of the name, if that is neither its first nor its last character. -/
def suffix (name : Str) : Str :=
  let tail := (name.reverse.takeWhile (· ≠ '.')).reverse
  if tail.length + 1 < name.length ∧ tail ≠ [] then '.' :: tail else []

/-- `endswith` (`pluggable_formats.py:27-38`), one suffix. -/
def endswith (p : Loc) (s : Str) : Bool :=
  match p with
  | .path _ name => lower (suffix name) = s
  | .str t => s.isSuffixOf (lower t)
  | .stream _ => true

/-- Contents of the files. -/
abbrev FS (B : Type) := Loc → Option B

/-- `MeshFormatInterpreter` (`pluggable_formats.py:41-92`). -/
structure Interp (B D : Type) where
  read : FS B → Loc → Except Err (Option D)
  save : FS B → D → Loc → Except Err Bool × FS B

/-- The base class itself (`pluggable_formats.py:47-92`). -/
def base {B D : Type} : Interp B D := ⟨fun _ _ => .error .notImplemented, fun fs _ _ => (.error .notImplemented, fs)⟩

/-- `register_meshes_format` (`pluggable.py:77-88`): `appendleft`; `none`: not an interpreter. -/
def register {B D : Type} (i : Option (Interp B D)) (is : List (Interp B D)) : Except Err (List (Interp B D)) :=
  match i with
  | none => .error .valueError
  | some i => .ok (i :: is)

/-- `load_mesh` (`pluggable.py:104-136`). -/
def load {B D : Type} (fs : FS B) (p : Loc) : List (Interp B D) → Except Err D
  | [] => .error .valueError
  | i :: is =>
    match i.read fs p with
    | .error e => .error e
    | .ok (some d) => .ok d
    | .ok none => load fs p is

/-- The loop of `save_mesh` (`pluggable.py:164-171`). -/
def saveLoop {B D : Type} (d : D) (p : Loc) : FS B → List (Interp B D) → Except Err Unit × FS B
  | fs, [] => (.error .valueError, fs)
  | fs, i :: is =>
    match i.save fs d p with
    | (.error e, fs') => (.error e, fs')
    | (.ok true, fs') => (.ok (), fs')
    | (.ok false, fs') => saveLoop d p fs' is

/-- What is given to `save_mesh`: something else, or a batch. -/
inductive Given (D : Type) where
  | wrong
  | batch (ds : List D)

/-- `save_mesh` (`pluggable.py:138-171`).  `include_textures` is not passed on. -/
def save {B D : Type} (fs : FS B) (g : Given D) (p : Loc) (_includeTextures : Bool) (is : List (Interp B D)) : Except Err Unit × FS B :=
  match g with
  | .wrong => (.error .valueError, fs)
  | .batch [d] => saveLoop d p fs is
  | .batch _ => (.error .valueError, fs)

/-- The built-in formats. -/
inductive Fmt where
  | obj | off | ply
deriving DecidableEq

/-- `known_suffixes` (`obj_io.py:303`, `off_io.py:425`, `ply_io.py:1380`). -/
def Fmt.suffix : Fmt → Str
  | .obj => ['.', 'o', 'b', 'j']
  | .off => ['.', 'o', 'f', 'f']
  | .ply => ['.', 'p', 'l', 'y']

/-- Encoder and decoder of a format. -/
structure Codec (B D : Type) where
  enc : D → Except Err B
  dec : B → Except Err D

/-- The mesh in a file that may not exist. -/
def contents {B D : Type} (c : Codec B D) (o : Option B) : Except Err D :=
  match o with
  | none => .error .fileNotFound
  | some b => c.dec b

/-- `read` and `save` of the three classes (`obj_io.py:305-363`, `off_io.py:427-497`, `ply_io.py:1382-1483`). -/
def builtin {B D : Type} (c : Codec B D) (f : Fmt) : Interp B D where
  read fs p :=
    if endswith p f.suffix then
      (contents c (fs p)).map some
    else .ok none
  save fs d p :=
    if endswith p f.suffix then
      match c.enc d with
      | .error e => (.error e, fs)
      | .ok b => (.ok true, fun q => if q = p then some b else fs q)
    else (.ok false, fs)

/-- `register_default_formats` (`pluggable.py:71-75`). -/
def defaults {B D : Type} (c : Fmt → Codec B D) : List (Interp B D) :=
  [builtin (c .ply) .ply, builtin (c .off) .off, builtin (c .obj) .obj]

/-- The same for point clouds. -/
def cloudDefaults {B D : Type} (c : Codec B D) : List (Interp B D) := [builtin c .ply]

/-- Kinds of textures: one colour of `C` channels for each vertex, an atlas, a map. -/
inductive Tex where
  | no
  | vertex (C : Nat)
  | atlas (R C : Nat)
  | uv
deriving DecidableEq

/-- The textures written for a mesh with vertices and faces (`obj_io.py:344-362`, `off_io.py:475-496` with the checks
`:345-382`, `ply_io.py:1458-1482`). -/
def texSaved (f : Fmt) (t : Tex) : Except Err Tex :=
  match f, t with
  | .obj, .uv => .ok .uv
  | .obj, _ => .ok .no
  | .off, .vertex C => if C = 3 ∨ C = 4 then .ok (.vertex C) else .error .valueError
  | .off, .atlas R C => if R = 1 then (if C = 3 ∨ C = 4 then .ok (.atlas 1 C) else .error .valueError) else .ok .no
  | .off, _ => .ok .no
  | .ply, .vertex C => if C = 3 then .ok (.vertex 3) else .ok .no
  | .ply, _ => .ok .no

/-- The textures read (`obj_io.py:318-326`, `off_io.py:446-455`, `ply_io.py:1398-1419`). -/
def texLoaded (f : Fmt) (includeTextures : Bool) (t : Tex) : Tex :=
  match f with
  | .off => t
  | _ => if includeTextures then t else .no

/-! ## Dispatch -/

variable {B D : Type}

/-- **C79.** A load succeeds exactly if some interpreter returns a mesh and all interpreters registered after it have
declined. -/
theorem load_ok (fs : FS B) (p : Loc) (is : List (Interp B D)) (d : D) :
    load fs p is = .ok d ↔ ∃ pre i post, is = pre ++ i :: post ∧ (∀ j ∈ pre, j.read fs p = .ok none) ∧ i.read fs p = .ok (some d) := by
  induction is with
  | nil => simp [load]
  | cons i is ih =>
    unfold load
    constructor
    · intro h
      match hr : i.read fs p with
      | .error e => rw [hr] at h; cases h
      | .ok (some d') =>
        rw [hr] at h
        cases h
        exact ⟨[], i, is, rfl, by simp, hr⟩
      | .ok none =>
        rw [hr] at h
        obtain ⟨pre, k, post, e, h1, h2⟩ := ih.mp h
        exact ⟨i :: pre, k, post, by rw [e]; rfl, by simpa [hr] using h1, h2⟩
    · rintro ⟨pre, k, post, e, h1, h2⟩
      cases pre with
      | nil =>
        simp only [List.nil_append, List.cons.injEq] at e
        rw [e.1, h2]
      | cons j pre =>
        simp only [List.cons_append, List.cons.injEq] at e
        rw [e.1, h1 j (by simp)]
        exact ih.mpr ⟨pre, k, post, e.2, fun x hx => h1 x (by simp [hx]), h2⟩

/-- **C79.** It raises exactly if all interpreters decline (`ValueError`) or the first that does not decline raises; older
interpreters are not tried after an exception. -/
theorem load_error (fs : FS B) (p : Loc) (is : List (Interp B D)) (e : Err) :
    load fs p is = .error e ↔ (e = .valueError ∧ ∀ j ∈ is, j.read fs p = .ok none) ∨
      ∃ pre i post, is = pre ++ i :: post ∧ (∀ j ∈ pre, j.read fs p = .ok none) ∧ i.read fs p = .error e := by
  induction is with
  | nil =>
    unfold load
    constructor
    · intro h; cases h; exact Or.inl ⟨rfl, by simp⟩
    · rintro (⟨rfl, -⟩ | ⟨pre, i, post, h, -⟩)
      · rfl
      · simp at h
  | cons i is ih =>
    unfold load
    constructor
    · intro h
      match hr : i.read fs p with
      | .error e' =>
        rw [hr] at h
        cases h
        exact Or.inr ⟨[], i, is, rfl, by simp, hr⟩
      | .ok (some d') => rw [hr] at h; cases h
      | .ok none =>
        rw [hr] at h
        rcases ih.mp h with ⟨he, ha⟩ | ⟨pre, k, post, e', h1, h2⟩
        · exact Or.inl ⟨he, by simpa [hr] using ha⟩
        · exact Or.inr ⟨i :: pre, k, post, by rw [e']; rfl, by simpa [hr] using h1, h2⟩
    · rintro (⟨he, ha⟩ | ⟨pre, k, post, e', h1, h2⟩)
      · rw [ha i (by simp)]
        exact ih.mpr (Or.inl ⟨he, fun j hj => ha j (by simp [hj])⟩)
      · cases pre with
        | nil =>
          simp only [List.nil_append, List.cons.injEq] at e'
          rw [e'.1, h2]
        | cons j pre =>
          simp only [List.cons_append, List.cons.injEq] at e'
          rw [e'.1, h1 j (by simp)]
          exact ih.mpr (Or.inr ⟨pre, k, post, e'.2, fun x hx => h1 x (by simp [hx]), h2⟩)

/-- **C79.** A newly registered interpreter decides about the files it does not decline, and changes nothing for others. -/
theorem register_load (fs : FS B) (p : Loc) (i : Interp B D) (is is' : List (Interp B D)) (h : register (some i) is = .ok is') :
    load fs p is' = match i.read fs p with
      | .error e => .error e
      | .ok (some d) => .ok d
      | .ok none => load fs p is := by
  cases h
  rfl

/-- An interpreter that does nothing when it declines to save. -/
def Quiet (i : Interp B D) : Prop := ∀ fs d p, (i.save fs d p).1 = .ok false → (i.save fs d p).2 = fs

theorem saveLoop_spec (d : D) (p : Loc) (fs : FS B) (is : List (Interp B D)) (hq : ∀ i ∈ is, Quiet i) :
    (saveLoop d p fs is = (.error .valueError, fs) ∧ ∀ j ∈ is, (j.save fs d p).1 = .ok false) ∨
    ∃ pre i post, is = pre ++ i :: post ∧ (∀ j ∈ pre, (j.save fs d p).1 = .ok false) ∧ (i.save fs d p).1 ≠ .ok false ∧
      saveLoop d p fs is = ((i.save fs d p).1.map fun _ => (), (i.save fs d p).2) := by
  induction is with
  | nil => exact Or.inl ⟨rfl, by simp⟩
  | cons i is ih =>
    have hqi := hq i (by simp) fs d p
    unfold saveLoop
    match hs : i.save fs d p with
    | (.error e, fs') =>
      exact Or.inr ⟨[], i, is, rfl, by simp, by rw [hs]; simp, by rw [hs]; rfl⟩
    | (.ok true, fs') =>
      exact Or.inr ⟨[], i, is, rfl, by simp, by rw [hs]; simp, by rw [hs]; rfl⟩
    | (.ok false, fs') =>
      rw [hs] at hqi
      obtain rfl := hqi rfl
      dsimp only
      rcases ih (fun j hj => hq j (by simp [hj])) with ⟨h1, h2⟩ | ⟨pre, k, post, e, h1, h2, h3⟩
      · exact Or.inl ⟨h1, by simpa [hs] using h2⟩
      · exact Or.inr ⟨i :: pre, k, post, by rw [e]; rfl, by simpa [hs] using h1, h2, h3⟩

/-- **C79.** `save_mesh` raises `ValueError` and writes nothing for anything but a batch of one, and if all interpreters
decline; otherwise it does exactly what the last registered interpreter that does not decline does. -/
theorem save_spec (fs : FS B) (g : Given D) (p : Loc) (tx : Bool) (is : List (Interp B D)) (hq : ∀ i ∈ is, Quiet i) :
    (save fs g p tx is = (.error .valueError, fs) ∧
      ((∀ d, g ≠ .batch [d]) ∨ ∃ d, g = .batch [d] ∧ ∀ j ∈ is, (j.save fs d p).1 = .ok false)) ∨
    ∃ d pre i post, g = .batch [d] ∧ is = pre ++ i :: post ∧ (∀ j ∈ pre, (j.save fs d p).1 = .ok false) ∧
      (i.save fs d p).1 ≠ .ok false ∧ save fs g p tx is = ((i.save fs d p).1.map fun _ => (), (i.save fs d p).2) := by
  unfold save
  match g with
  | .wrong => exact Or.inl ⟨rfl, Or.inl (by intro d h; cases h)⟩
  | .batch [] => exact Or.inl ⟨rfl, Or.inl (by intro d h; cases h)⟩
  | .batch (a :: b :: r) => exact Or.inl ⟨rfl, Or.inl (by intro d h; cases h)⟩
  | .batch [d] =>
    dsimp only
    rcases saveLoop_spec d p fs is hq with ⟨h1, h2⟩ | ⟨pre, k, post, e, h1, h2, h3⟩
    · exact Or.inl ⟨h1, Or.inr ⟨d, rfl, h2⟩⟩
    · exact Or.inr ⟨d, pre, k, post, rfl, e, h1, h2, h3⟩

/-- **C79.** The argument `include_textures` of `save_mesh` has no effect. -/
theorem save_textures (fs : FS B) (g : Given D) (p : Loc) (is : List (Interp B D)) : save fs g p false is = save fs g p true is := rfl

/-! ## Built-in formats -/

theorem builtin_quiet (c : Codec B D) (f : Fmt) : Quiet (builtin c f) := by
  intro fs d p h
  unfold builtin at h ⊢
  dsimp only at h ⊢
  split at h
  · split at h <;> cases h
  · rename_i hs; rw [if_neg hs]

theorem suffix_lower (f : Fmt) : lower f.suffix = f.suffix := by cases f <;> decide

theorem fmt_len (f : Fmt) : f.suffix.length = 4 := by cases f <;> rfl

theorem fmt_inj {f g : Fmt} (h : f.suffix = g.suffix) : f = g := by
  cases f <;> cases g <;> first | rfl | (exact absurd h (by decide))

/-- **C79.** No file name belongs to two of the built-in formats. -/
theorem endswith_unique {p : Loc} (hp : ∀ n, p ≠ .stream n) {f g : Fmt} (hf : endswith p f.suffix = true) (hg : endswith p g.suffix = true) :
    f = g := by
  cases p with
  | stream n => exact absurd rfl (hp n)
  | path d name =>
    unfold endswith at hf hg
    simp only [decide_eq_true_eq] at hf hg
    exact fmt_inj (hf.symm.trans hg)
  | str t =>
    unfold endswith at hf hg
    simp only [List.isSuffixOf_iff_suffix] at hf hg
    apply fmt_inj
    obtain ⟨a, ha⟩ := hf
    obtain ⟨b, hb⟩ := hg
    have := List.append_inj' (ha.trans hb.symm) (by rw [fmt_len, fmt_len])
    exact this.2

/-- **C79.** A file name of one of the formats is read and written by that format, whatever the case of its letters. -/
theorem defaults_load (c : Fmt → Codec B D) (fs : FS B) {p : Loc} (hp : ∀ n, p ≠ .stream n) {f : Fmt}
    (hf : endswith p f.suffix = true) : load fs p (defaults c) = contents (c f) (fs p) := by
  have hno : ∀ g, g ≠ f → (builtin (c g) g).read fs p = .ok none := by
    intro g hg
    unfold builtin
    dsimp only
    rw [if_neg]
    intro h
    exact hg (endswith_unique hp h hf)
  have hyes : (builtin (c f) f).read fs p = (contents (c f) (fs p)).map some := by
    unfold builtin
    dsimp only
    rw [if_pos hf]
  have cons_no : ∀ (i : Interp B D) is, i.read fs p = .ok none → load fs p (i :: is) = load fs p is := by
    intro i is h
    rw [load, h]
  have cons_yes : ∀ (i : Interp B D) is r, i.read fs p = Except.map some r → load fs p (i :: is) = r := by
    intro i is r h
    rw [load, h]
    cases r <;> rfl
  unfold defaults
  cases f with
  | ply => exact cons_yes _ _ _ hyes
  | off => rw [cons_no _ _ (hno .ply (by decide))]; exact cons_yes _ _ _ hyes
  | obj => rw [cons_no _ _ (hno .ply (by decide)), cons_no _ _ (hno .off (by decide))]; exact cons_yes _ _ _ hyes

/-- **C79.** Other file names raise `ValueError`, on loading and on saving, and nothing is written. -/
theorem defaults_none (c : Fmt → Codec B D) (fs : FS B) {p : Loc} (hf : ∀ f : Fmt, endswith p f.suffix = false) (d : D) (tx : Bool) :
    load fs p (defaults c) = .error .valueError ∧ save fs (.batch [d]) p tx (defaults c) = (.error .valueError, fs) := by
  simp [defaults, load, save, saveLoop, builtin, hf]

/-- **C79.** A stream is always taken to be PLY. -/
theorem defaults_stream (c : Fmt → Codec B D) (fs : FS B) (n : Nat) (b : B) (hb : fs (.stream n) = some b) (d : D) (tx : Bool) (b' : B)
    (he : (c .ply).enc d = .ok b') :
    load fs (.stream n) (defaults c) = (c .ply).dec b ∧
    save fs (.batch [d]) (.stream n) tx (defaults c) = (.ok (), fun q => if q = .stream n then some b' else fs q) := by
  constructor
  · simp only [defaults, load, builtin, endswith, hb, if_true, contents]
    cases (c .ply).dec b <;> rfl
  · simp [defaults, save, saveLoop, builtin, endswith, he]

/-- **C79.** What is saved is found again: if saving succeeds, loading the same file decodes what was encoded, and no other
file has changed. -/
theorem save_load (c : Fmt → Codec B D) (fs : FS B) {p : Loc} (hp : ∀ n, p ≠ .stream n) (d : D) (tx : Bool) {fs' : FS B}
    (hs : save fs (.batch [d]) p tx (defaults c) = (.ok (), fs')) : ∃ f b, endswith p f.suffix = true ∧ (c f).enc d = .ok b ∧
      fs' p = some b ∧ load fs' p (defaults c) = (c f).dec b ∧ ∀ q, q ≠ p → fs' q = fs q := by
  by_cases hf : ∃ f : Fmt, endswith p f.suffix = true
  · obtain ⟨f, hf⟩ := hf
    have hno : ∀ g, g ≠ f → (builtin (c g) g).save fs d p = (.ok false, fs) := by
      intro g hg
      unfold builtin
      dsimp only
      rw [if_neg]
      intro h
      exact hg (endswith_unique hp h hf)
    have hyes : (builtin (c f) f).save fs d p = match (c f).enc d with
        | .error e => (.error e, fs)
        | .ok b => (.ok true, fun q => if q = p then some b else fs q) := by
      unfold builtin
      dsimp only
      rw [if_pos hf]
    have key : ∃ b, (c f).enc d = .ok b ∧ fs' = fun q => if q = p then some b else fs q := by
      match he : (c f).enc d with
      | .error e =>
        rw [he] at hyes
        dsimp only at hyes
        cases f <;> simp [save, defaults, saveLoop, hyes, hno] at hs
      | .ok b =>
        rw [he] at hyes
        dsimp only at hyes
        refine ⟨b, rfl, ?_⟩
        cases f <;> simp [save, defaults, saveLoop, hyes, hno] at hs <;> exact hs.symm
    obtain ⟨b, he, rfl⟩ := key
    refine ⟨f, b, hf, he, by simp, ?_, fun q hq => if_neg hq⟩
    rw [defaults_load c _ hp hf]
    simp [contents]
  · have : ∀ f : Fmt, endswith p f.suffix = false := by
      intro f
      cases h : endswith p f.suffix
      · rfl
      · exact absurd ⟨f, h⟩ hf
    rw [(defaults_none c fs this d tx).2] at hs
    cases hs

/-- **C79.** Point clouds can be saved to and loaded from PLY only. -/
theorem clouds_only_ply (c : Codec B D) (fs : FS B) {p : Loc} (hp : endswith p Fmt.ply.suffix = false) (d : D) (tx : Bool) :
    load fs p (cloudDefaults c) = .error .valueError ∧ save fs (.batch [d]) p tx (cloudDefaults c) = (.error .valueError, fs) := by
  simp [cloudDefaults, load, save, saveLoop, builtin, hp]

/-! ## Path objects and strings -/

theorem suffix_eq {name : Str} {ext : Str} (hd : '.' ∉ ext) (hne : ext ≠ []) (stem : Str) (h : name = stem ++ '.' :: ext) :
    suffix name = if stem = [] then [] else '.' :: ext := by
  have ht : (name.reverse.takeWhile (· ≠ '.')).reverse = ext := by
    subst h
    have hall : ∀ l : Str, (∀ a ∈ l, a ∈ ext) → (l ++ '.' :: stem.reverse).takeWhile (· ≠ '.') = l := by
      intro l hl
      induction l with
      | nil => simp
      | cons a l ih =>
        have : a ≠ '.' := fun e => hd (e ▸ hl a (by simp))
        rw [List.cons_append, List.takeWhile_cons, if_pos (by simpa using this), ih (fun x hx => hl x (by simp [hx]))]
    rw [List.reverse_append, List.reverse_cons, List.append_assoc]
    rw [show [('.' : Char)] ++ stem.reverse = '.' :: stem.reverse from rfl, hall ext.reverse (by simp)]
    simp
  unfold suffix
  rw [ht]
  dsimp only
  subst h
  cases stem with
  | nil => simp
  | cons a s =>
    rw [if_pos ⟨by simp; omega, hne⟩, if_neg (by simp)]

theorem dot_takeWhile (l : Str) : '.' ∉ l.takeWhile (· ≠ '.') := by
  induction l with
  | nil => simp
  | cons a l ih =>
    rw [List.takeWhile_cons]
    by_cases h : a = '.'
    · simp [h]
    · rw [if_pos (by simpa using h)]
      simp only [List.mem_cons, not_or]
      exact ⟨fun e => h e.symm, ih⟩

theorem dropWhile_head (l : Str) {a : Char} {r : Str} (h : l.dropWhile (· ≠ '.') = a :: r) : a = '.' := by
  induction l with
  | nil => simp at h
  | cons b l ih =>
    rw [List.dropWhile_cons] at h
    by_cases hb : b = '.'
    · rw [if_neg (by simpa using hb)] at h
      cases h; exact hb
    · rw [if_pos (by simpa using hb)] at h
      exact ih h

theorem suffix_dot {name : Str} (h : suffix name ≠ []) : ∃ stem ext, name = stem ++ '.' :: ext ∧ '.' ∉ ext ∧ stem ≠ [] ∧ suffix name = '.' :: ext := by
  have hs := h
  unfold suffix at hs
  dsimp only at hs
  split at hs
  · rename_i hc
    obtain ⟨h1, h2⟩ := hc
    have e := List.takeWhile_append_dropWhile (p := fun x : Char => decide (x ≠ '.')) (l := name.reverse)
    have hnd : '.' ∉ name.reverse.takeWhile (· ≠ '.') := dot_takeWhile _
    match hdw : name.reverse.dropWhile (· ≠ '.') with
    | [] =>
      rw [hdw, List.append_nil] at e
      rw [e] at h1
      simp at h1
      omega
    | a :: r =>
      have ha : a = '.' := dropWhile_head _ hdw
      rw [hdw, ha] at e
      have e' : name = r.reverse ++ '.' :: (name.reverse.takeWhile (· ≠ '.')).reverse := by
        have := congrArg List.reverse e
        rw [List.reverse_reverse] at this
        calc name = _ := this.symm
          _ = _ := by rw [List.reverse_append, List.reverse_cons, List.append_assoc]; rfl
      refine ⟨r.reverse, _, e', by simpa using hnd, ?_, ?_⟩
      · intro hr
        rw [hr, List.nil_append] at e'
        have := congrArg List.length e'
        simp only [List.length_cons] at this
        omega
      · unfold suffix
        dsimp only
        rw [if_pos ⟨h1, h2⟩]
  · exact absurd rfl hs

theorem toLower_dot (a : Char) : a.toLower = '.' ↔ a = '.' := by
  constructor
  · intro h
    unfold Char.toLower at h
    split at h
    · rename_i hc
      exfalso
      have h2 : (a.toNat + 32) % 4294967296 = 46 := by
        have := congrArg Char.toNat h
        simpa using this
      have h3 : 65 ≤ a.toNat := hc.1
      have h4 : a.toNat ≤ 90 := hc.2
      omega
    · exact h
  · rintro rfl; decide

/-- **C79.** A `Path` is recognised exactly if its string is, unless its name is nothing but the suffix (`.obj`): strings of
that form are recognised, paths are not. -/
theorem path_string (parent name : Str) (f : Fmt) (hn : 4 ≤ name.length) : endswith (.path parent name) f.suffix = true ↔
    endswith (.str (parent ++ name)) f.suffix = true ∧ lower name ≠ f.suffix := by
  have hext : ∃ ext : Str, f.suffix = '.' :: ext ∧ '.' ∉ ext ∧ ext ≠ [] ∧ ext.length = 3 := by
    cases f <;> exact ⟨_, rfl, by decide, by decide, rfl⟩
  obtain ⟨ext, hf, hd, hne, hl⟩ := hext
  unfold endswith
  simp only [decide_eq_true_eq, List.isSuffixOf_iff_suffix]
  constructor
  · intro h
    have hs : suffix name ≠ [] := by
      intro e; rw [e, hf] at h; cases h
    obtain ⟨stem, x, e1, e2, e3, e4⟩ := suffix_dot hs
    rw [e4] at h
    rw [← h]
    constructor
    · refine ⟨lower (parent ++ stem), ?_⟩
      rw [e1]; simp [lower]
    · intro e
      have := congrArg List.length e
      rw [e1] at this
      simp [lower] at this
      exact e3 this
  · rintro ⟨⟨a, ha⟩, hne'⟩
    have hlen : f.suffix.length = 4 := fmt_len f
    have hl' : lower (parent ++ name) = lower parent ++ lower name := by simp [lower]
    rw [hl'] at ha
    -- the last four characters belong to the name
    have hsuf : f.suffix <:+ lower name := by
      have h1 : f.suffix <:+ lower parent ++ lower name := ⟨a, ha⟩
      have h2 : lower name <:+ lower parent ++ lower name := ⟨_, rfl⟩
      exact List.suffix_of_suffix_length_le h1 h2 (by rw [hlen]; simpa [lower] using hn)
    obtain ⟨b, hb⟩ := hsuf
    have hb1 : b ≠ [] := by
      rintro rfl; exact hne' hb.symm
    -- split the name
    have hsplit : name = name.take b.length ++ name.drop b.length := (List.take_append_drop _ _).symm
    have hlow : lower (name.take b.length) = b ∧ lower (name.drop b.length) = f.suffix := by
      have : lower (name.take b.length) ++ lower (name.drop b.length) = b ++ f.suffix := by
        rw [hb]; unfold lower; rw [← List.map_append, ← hsplit]
      have hlb : b.length ≤ name.length := by
        have := congrArg List.length hb
        simp [lower] at this; omega
      exact List.append_inj this (by simp [lower, hlb])
    match hdrop : name.drop b.length with
    | [] => rw [hdrop, hf] at hlow; simp [lower] at hlow
    | y :: ys =>
      rw [hdrop, hf] at hlow
      have h2 := hlow.2
      simp only [lower, List.map_cons, List.cons.injEq] at h2
      have hy : y = '.' := (toLower_dot y).mp h2.1
      have hys : '.' ∉ ys := by
        intro hm
        apply hd
        rw [← h2.2]
        exact List.mem_map.mpr ⟨'.', hm, by decide⟩
      have hysne : ys ≠ [] := by
        rintro rfl; simp at h2; exact hne h2.2
      have hstem : name.take b.length ≠ [] := by
        intro e; rw [e] at hlow; exact hb1 hlow.1.symm
      rw [suffix_eq hys hysne (name.take b.length) (by rw [← hy, ← hdrop]; exact hsplit), if_neg hstem, hf]
      simp only [lower, List.map_cons, h2.2]
      rfl

/-! ## Textures -/

/-- **C79.** The textures that survive saving and loading: maps in OBJ, three or four colours for each vertex or face in OFF,
three colours for each vertex in PLY.  Everything else is lost without an exception, except that OFF raises for colours of
another number of channels. -/
theorem textures_survive (f : Fmt) (t : Tex) (ht : t ≠ .no) :
    ((texSaved f t).map (texLoaded f true) = .ok t ↔
      (f = .obj ∧ t = .uv) ∨ (f = .off ∧ ∃ C, (C = 3 ∨ C = 4) ∧ (t = .vertex C ∨ t = .atlas 1 C)) ∨ f = .ply ∧ t = .vertex 3) ∧
    ((texSaved f t).map (texLoaded f true) = .ok t ∨ (texSaved f t).map (texLoaded f true) = .ok .no ∨
      f = .off ∧ (texSaved f t) = .error .valueError) := by
  cases f <;> cases t <;> simp only [texSaved, texLoaded, Except.map] <;> (try split_ifs) <;> simp_all

/-- **C79.** `load_mesh(include_textures=False)` still returns the colours of an OFF file. -/
theorem off_textures (t : Tex) (b : Bool) : texLoaded .off b t = t := rfl

theorem no_textures (f : Fmt) (h : f ≠ .off) (t : Tex) : texLoaded f false t = .no := by
  cases f <;> first | rfl | exact absurd rfl h

/-! ## Examples -/

example : endswith (.str "A/Model.OBJ".toList) Fmt.obj.suffix = true := by decide
example : endswith (.path "A/".toList "Model.OBJ".toList) Fmt.obj.suffix = true := by decide
example : endswith (.str "A/.obj".toList) Fmt.obj.suffix = true := by decide
example : endswith (.path "A/".toList ".obj".toList) Fmt.obj.suffix = false := by decide
example : endswith (.path [] "mesh.ply.off".toList) Fmt.ply.suffix = false := by decide

/-- A codec of one number. -/
def exCodec (k : Nat) : Codec Nat Nat := ⟨fun d => .ok (d + k), fun b => .ok (b - k)⟩

def exAll (f : Fmt) : Codec Nat Nat := exCodec (match f with | .obj => 1 | .off => 2 | .ply => 3)

example : load (fun _ => some 10) (.str "x.off".toList) (defaults exAll) = .ok 8 := by rfl
example : load (fun _ => some 10) (.str "x.stl".toList) (defaults exAll) = .error .valueError := by rfl
example : (save (fun _ => none) (.batch [5]) (.str "x.obj".toList) true (defaults exAll)).2 (.str "x.obj".toList) = some 6 := by rfl
/-- A user format for `.obj` files comes before the built-in one. -/
example : load (fun _ => some 10) (.str "x.obj".toList) (builtin (exCodec 7) .obj :: defaults exAll) = .ok 3 := by rfl

end P3D.PluggableIo
