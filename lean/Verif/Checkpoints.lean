/-
Checkpoint files (`pytorch3d/implicitron/tools/model_io.py`).

A directory is a map from file names to contents (names are the last components of paths, the directory is fixed).
Not modelled: the contents of the files beyond being equal to what was saved, negative epochs, `eval_results` of `get_stats_path`, names with slashes, failing writes.
-/
import Verif.Text
import Mathlib.Data.List.Sort
import Mathlib.Tactic.Linarith

set_option linter.unusedSectionVars false

namespace P3D.Checkpoints
open P3D.Text

inductive Err
  | notFound
  deriving DecidableEq, Repr

/-! ### The code -/

def pre : Str := "model_epoch_".toList
def pth : Str := ".pth".toList
def optExt : Str := "_opt.pth".toList
def statsExt : Str := "_stats.jgz".toList

/-- `"%08d" % epoch` for epochs that are not negative. -/
def pad8 (e : Nat) : Str := if e < 10 ^ 8 then fmtFixed 8 e else fmtNat e

/-- `get_checkpoint` (model_io.py:136-138). -/
def ckpt (e : Nat) : Str := pre ++ pad8 e ++ pth

/-- `os.path.splitext(name)[0]` (used in lines 32, 38, 44): cut at the last dot unless only dots come before it. -/
def root (s : Str) : Str :=
  let r := (s.reverse.dropWhile (fun c => c ≠ '.')).tail
  if '.' ∈ s ∧ r.any (fun c => decide (c ≠ '.')) = true then r.reverse else s

/-- `get_model_path` (lines 31-34). -/
def modelPath (s : Str) : Str := root s ++ pth
/-- `get_optimizer_path` (lines 37-40). -/
def optPath (s : Str) : Str := root s ++ optExt
/-- `get_stats_path` (lines 43-54) without `eval_results`. -/
def statsPath (s : Str) : Str := root s ++ statsExt

/-- A directory. -/
def Dir (C : Type) := Str → Option C

variable {C : Type}

def Dir.write (d : Dir C) (n : Str) (c : C) : Dir C := fun m => if m = n then some c else d m
def Dir.remove (d : Dir C) (n : Str) : Dir C := fun m => if m = n then none else d m

/-- The files `save_model` (lines 88-101) returns with their contents, in the order returned. -/
def saved (s : Str) (m st : C) (o : Option C) : List (Str × C) :=
  (statsPath s, st) :: (modelPath s, m) :: (match o with | none => [] | some o => [(optPath s, o)])

def writeAll (d : Dir C) (l : List (Str × C)) : Dir C := l.foldl (fun d p => d.write p.1 p.2) d

/-- `save_model` (lines 88-101): the model, the optimizer if given, the statistics. -/
def save (d : Dir C) (s : Str) (m st : C) (o : Option C) : Dir C :=
  let d := d.write (modelPath s) m
  let d := match o with | none => d | some o => d.write (optPath s) o
  d.write (statsPath s) st

/-- `safe_save_model` (lines 57-85) interrupted after `k` moves: everything is written elsewhere first, and then moved in the order of `saved`. -/
def safeSave (k : Nat) (d : Dir C) (s : Str) (m st : C) (o : Option C) : Dir C := writeAll d ((saved s m st o).take k)

/-- `load_model` (lines 111-122). -/
def load (d : Dir C) (s : Str) : Except Err (C × Option C × Option C) :=
  match d (modelPath s) with
  | none => .error .notFound
  | some m => .ok (m, d (statsPath s), d (optPath s))

/-- `str.replace(p, "")`: occurrences from the left, `k` characters still to be skipped. -/
def removeAux (p : Str) : Nat → Str → Str
  | _, [] => []
  | k + 1, _ :: s => removeAux p k s
  | 0, c :: s => if p.isPrefixOf (c :: s) then removeAux p (p.length - 1) s else c :: removeAux p 0 s

def removeAll (p s : Str) : Str := removeAux p 0 s

/-- `parse_epoch_from_model_path` (lines 125-128). -/
def parseEpoch (s : Str) : Option Int := parseInt (removeAll pre (removeAll pth s))

/-- The pattern of line 154: the prefix, eight digits and the extension. -/
def isMatch (ext s : Str) : Bool :=
  decide (s.take 12 = pre) && decide (((s.drop 12).take 8).length = 8) && ((s.drop 12).take 8).all isDigit && decide (s.drop 20 = ext)

/-- Python's order of strings. -/
def strLe : Str → Str → Bool
  | [], _ => true
  | _ :: _, [] => false
  | c :: s, d :: t => decide (c.toNat < d.toNat) || (decide (c.toNat = d.toNat) && strLe s t)

/-- `sorted(glob.glob(...))` (lines 151-155) of a list of names. -/
def globbed (names : List Str) (ext : Str) : List Str := (names.filter (isMatch ext)).insertionSort (fun a b => strLe a b = true)

/-- The first extension with files (lines 145-158). -/
def firstExt (names : List Str) : List Str → Option (Str × List Str)
  | [] => none
  | ext :: exts => if globbed names ext = [] then firstExt names exts else some (ext, globbed names ext)

def exts (anyPath : Bool) : List Str := if anyPath then [pth, statsExt, optExt] else [pth]

/-- `f[0 : -len(ext)] + ".pth"`. -/
def toModel (ext f : Str) : Str := f.take (f.length - ext.length) ++ pth

/-- `find_last_checkpoint` (lines 141-170) with `all_checkpoints`. -/
def findAll (names : List Str) (anyPath : Bool) : Option (List Str) :=
  (firstExt names (exts anyPath)).map fun p => p.2.map (toModel p.1)

/-- `find_last_checkpoint` without `all_checkpoints`. -/
def findLast (names : List Str) (anyPath : Bool) : Option Str :=
  (firstExt names (exts anyPath)).bind fun p => (p.2.getLast?).map (toModel p.1)

/-- `purge_epoch` (lines 173-184). -/
def purge (d : Dir C) (e : Nat) : Dir C :=
  ((d.remove (ckpt e)).remove (optPath (ckpt e))).remove (statsPath (ckpt e))

/-! ### Names -/

theorem pad8_digits (e : Nat) : pad8 e ≠ [] ∧ (pad8 e).all isDigit = true ∧ val 0 (pad8 e) = e := by
  unfold pad8
  split_ifs with h
  · obtain ⟨h1, h2, h3⟩ := fmtFixed_spec 8 e
    refine ⟨fun h0 => by rw [h0] at h1; simp at h1, h2, ?_⟩
    rw [h3, Nat.mod_eq_of_lt h]
    omega
  · exact fmtNat_spec e

theorem pad8_length {e : Nat} (h : e < 10 ^ 8) : (pad8 e).length = 8 := by
  unfold pad8
  rw [if_pos h]
  exact (fmtFixed_spec 8 e).1

theorem val_lt : ∀ (s : Str) (a : Nat), s.all isDigit = true → val a s < (a + 1) * 10 ^ s.length
  | [], a, _ => by
    show a < (a + 1) * 10 ^ 0
    omega
  | c :: s, a, h => by
    rw [List.all_cons, Bool.and_eq_true] at h
    have h1 := val_lt s (10 * a + (c.toNat - 48)) h.2
    have h2 : c.toNat - 48 + 1 ≤ 10 := by
      have := h.1
      unfold isDigit at this
      simp only [Bool.and_eq_true, decide_eq_true_eq] at this
      omega
    have h3 : (10 * a + (c.toNat - 48) + 1) * 10 ^ s.length ≤ ((a + 1) * 10) * 10 ^ s.length := Nat.mul_le_mul_right _ (by omega)
    have h4 : (a + 1) * 10 ^ (c :: s).length = ((a + 1) * 10) * 10 ^ s.length := by
      rw [List.length_cons, pow_succ]
      ring
    rw [h4]
    exact lt_of_lt_of_le h1 h3

/-- Eight digits exactly for epochs below 10⁸. -/
theorem pad8_eight (e : Nat) : (pad8 e).length = 8 ↔ e < 10 ^ 8 := by
  refine ⟨fun h => ?_, pad8_length⟩
  obtain ⟨_, h2, h3⟩ := pad8_digits e
  have := val_lt _ 0 h2
  rw [h3, h] at this
  omega

/-- Digits are determined by their number and length. -/
theorem digits_inj : ∀ (s t : Str), s.all isDigit = true → t.all isDigit = true → s.length = t.length → (∀ a b, val a s = val b t → a = b ∧ s = t)
  | [], [], _, _, _, a, b, h => ⟨h, rfl⟩
  | c :: s, d :: t, hs, ht, hl, a, b, h => by
    rw [List.all_cons, Bool.and_eq_true] at hs ht
    obtain ⟨e, rfl⟩ := digits_inj s t hs.2 ht.2 (by simpa using hl) _ _ h
    have h1 := hs.1
    have h2 := ht.1
    unfold isDigit at h1 h2
    simp only [Bool.and_eq_true, decide_eq_true_eq] at h1 h2
    have hc : c.toNat = d.toNat := by omega
    exact ⟨by omega, by rw [Char.toNat_inj.1 hc]⟩
  | [], _ :: _, _, _, h, _, _, _ => by simp at h
  | _ :: _, [], _, _, h, _, _, _ => by simp at h

theorem pad8_of_digits {ds : Str} (h : ds.all isDigit = true) (hl : ds.length = 8) : val 0 ds < 10 ^ 8 ∧ pad8 (val 0 ds) = ds := by
  have hv : val 0 ds < 10 ^ 8 := by
    have := val_lt ds 0 h
    rw [hl] at this
    omega
  refine ⟨hv, ?_⟩
  obtain ⟨_, h2, h3⟩ := pad8_digits (val 0 ds)
  exact (digits_inj _ _ h2 h (by rw [pad8_length hv, hl]) 0 0 h3).2

theorem root_dot (a b : Str) (hb : '.' ∉ b) (ha : a.any (fun c => decide (c ≠ '.')) = true) : root (a ++ '.' :: b) = a := by
  have h1 : ((a ++ '.' :: b).reverse.dropWhile (fun c => decide (c ≠ '.'))).tail = a.reverse := by
    have : (a ++ '.' :: b).reverse = b.reverse ++ '.' :: a.reverse := by simp
    rw [this, List.dropWhile_append_of_pos]
    · simp
    · intro c hc
      have : c ∈ b := List.mem_reverse.1 hc
      simp only [ne_eq, decide_not, Bool.not_eq_eq_eq_not, Bool.not_true, decide_eq_false_iff_not]
      rintro rfl
      exact hb this
  unfold root
  rw [h1]
  dsimp only
  rw [if_pos, List.reverse_reverse]
  refine ⟨by simp, ?_⟩
  rw [List.any_reverse]
  exact ha

theorem root_ckpt (e : Nat) : root (ckpt e) = pre ++ pad8 e := by
  unfold ckpt
  exact root_dot (pre ++ pad8 e) "pth".toList (by decide) (by rw [List.any_append]; rfl)

/-- The three files of an epoch. -/
theorem paths_ckpt (e : Nat) : modelPath (ckpt e) = ckpt e ∧ optPath (ckpt e) = pre ++ pad8 e ++ "_opt.pth".toList
    ∧ statsPath (ckpt e) = pre ++ pad8 e ++ "_stats.jgz".toList := by
  unfold modelPath optPath statsPath
  rw [root_ckpt]
  exact ⟨rfl, rfl, rfl⟩

theorem three (s : Str) : modelPath s ≠ optPath s ∧ modelPath s ≠ statsPath s ∧ optPath s ≠ statsPath s := by
  unfold modelPath optPath statsPath
  refine ⟨?_, ?_, ?_⟩ <;> intro h <;> have := List.append_cancel_left h <;> revert this <;> decide

theorem removeAux_copy (p s t : Str) (h : ∀ c ∈ s, p.head? ≠ some c) (hp : p ≠ []) : removeAux p 0 (s ++ t) = s ++ removeAux p 0 t := by
  induction s with
  | nil => rfl
  | cons c s ih =>
    rw [List.cons_append, removeAux, if_neg, ih fun d hd => h d (List.mem_cons_of_mem _ hd), List.cons_append]
    intro h1
    match p, hp with
    | a :: p, _ =>
      simp only [List.isPrefixOf, Bool.and_eq_true, beq_iff_eq] at h1
      exact h c List.mem_cons_self (by rw [h1.1]; rfl)

theorem digits_ne {ds : Str} (h : ds.all isDigit = true) {c d : Char} (hc : c ∈ ds) (hd : isDigit d = false) : c ≠ d :=
  isDigit_ne (List.all_eq_true.1 h c hc) hd

theorem remove_pth (ds : Str) (h : ds.all isDigit = true) : removeAll pth (pre ++ ds ++ pth) = pre ++ ds := by
  unfold removeAll
  rw [removeAux_copy pth (pre ++ ds) pth _ (by decide)]
  · have : removeAux pth 0 pth = [] := by decide
    rw [this, List.append_nil]
  · intro c hc
    have hh : pth.head? = some '.' := rfl
    rw [hh]
    intro e
    have e := (Option.some.inj e).symm
    rcases List.mem_append.1 hc with h1 | h1
    · rw [e] at h1
      revert h1
      decide
    · exact digits_ne h h1 (by decide) e

theorem removeAux_skip (p : Str) : ∀ (s t : Str), removeAux p s.length (s ++ t) = removeAux p 0 t
  | [], t => rfl
  | _ :: s, t => by
    rw [List.length_cons, List.cons_append, removeAux]
    exact removeAux_skip p s t

theorem removeAux_head (c : Char) (p t : Str) : removeAux (c :: p) 0 (c :: p ++ t) = removeAux (c :: p) 0 t := by
  rw [List.cons_append, removeAux, if_pos, List.length_cons, Nat.add_sub_cancel, removeAux_skip]
  rw [List.isPrefixOf_iff_prefix]
  exact ⟨t, rfl⟩

theorem remove_pre (ds : Str) (h : ds.all isDigit = true) : removeAll pre (pre ++ ds) = ds := by
  have h1 : removeAll pre (pre ++ ds) = removeAux pre 0 ds := removeAux_head 'm' "odel_epoch_".toList ds
  rw [h1]
  have := removeAux_copy pre ds [] (fun c hc => ?_) (by decide)
  · rw [List.append_nil] at this
    rw [this]
    simp [removeAux]
  · have hh : pre.head? = some 'm' := rfl
    rw [hh]
    intro e
    exact digits_ne h hc (by decide) (Option.some.inj e).symm

/-- Every epoch is read back from its file's name, however large. -/
theorem parse_ckpt (e : Nat) : parseEpoch (ckpt e) = some (e : Int) := by
  obtain ⟨h1, h2, h3⟩ := pad8_digits e
  unfold parseEpoch ckpt
  rw [remove_pth _ h2, remove_pre _ h2]
  unfold parseInt
  rw [sign_of_digits h2]
  dsimp only
  unfold parseNat
  rw [if_pos ⟨h1, h2⟩, h3]
  rfl

example : ckpt 12 = "model_epoch_00000012.pth".toList ∧ parseEpoch (ckpt 12) = some 12 := ⟨by decide, parse_ckpt 12⟩

theorem ckpt_inj {e e' : Nat} (h : ckpt e = ckpt e') : e = e' := by
  have := parse_ckpt e
  rw [h, parse_ckpt] at this
  exact_mod_cast (Option.some.inj this).symm

/-! ### The last checkpoint -/

theorem strLe_total : ∀ a b : Str, strLe a b = true ∨ strLe b a = true
  | [], _ => Or.inl rfl
  | _ :: _, [] => Or.inr rfl
  | c :: s, d :: t => by
    have := strLe_total s t
    unfold strLe
    simp only [Bool.or_eq_true, Bool.and_eq_true, decide_eq_true_eq]
    rcases lt_trichotomy c.toNat d.toNat with h | h | h
    · exact Or.inl (Or.inl h)
    · rcases this with h' | h'
      · exact Or.inl (Or.inr ⟨h, h'⟩)
      · exact Or.inr (Or.inr ⟨h.symm, h'⟩)
    · exact Or.inr (Or.inl h)

theorem strLe_trans : ∀ a b c : Str, strLe a b = true → strLe b c = true → strLe a c = true
  | [], _, _, _, _ => rfl
  | _ :: _, [], _, h, _ => by simp [strLe] at h
  | _ :: _, _ :: _, [], _, h => by simp [strLe] at h
  | x :: a, y :: b, z :: c, h1, h2 => by
    have ih := strLe_trans a b c
    unfold strLe at h1 h2 ⊢
    simp only [Bool.or_eq_true, Bool.and_eq_true, decide_eq_true_eq] at h1 h2 ⊢
    rcases h1 with h1 | ⟨h1, h1'⟩ <;> rcases h2 with h2 | ⟨h2, h2'⟩
    · exact Or.inl (by omega)
    · exact Or.inl (by omega)
    · exact Or.inl (by omega)
    · exact Or.inr ⟨by omega, ih h1' h2'⟩

theorem strLe_prefix (p a b : Str) : strLe (p ++ a) (p ++ b) = strLe a b := by
  induction p with
  | nil => rfl
  | cons c p ih => simp [strLe, ih]

/-- Digits of equal length are ordered as their numbers. -/
theorem strLe_val : ∀ (s t x : Str) (a : Nat), s.all isDigit = true → t.all isDigit = true → s.length = t.length → strLe (s ++ x) (t ++ x) = true →
    val a s ≤ val a t
  | [], [], _, _, _, _, _, _ => le_refl _
  | c :: s, d :: t, x, a, hs, ht, hl, h => by
    rw [List.all_cons, Bool.and_eq_true] at hs ht
    have hc := hs.1
    have hd := ht.1
    unfold isDigit at hc hd
    simp only [Bool.and_eq_true, decide_eq_true_eq] at hc hd
    rw [List.cons_append, List.cons_append, strLe] at h
    simp only [Bool.or_eq_true, Bool.and_eq_true, decide_eq_true_eq] at h
    show val (10 * a + (c.toNat - 48)) s ≤ val (10 * a + (d.toNat - 48)) t
    rcases h with h | ⟨h, h'⟩
    · have h1 := val_lt s (10 * a + (c.toNat - 48)) hs.2
      have h2 : ∀ (t : Str) (b : Nat), b * 10 ^ t.length ≤ val b t := by
        intro t
        induction t with
        | nil => intro b; show b * 10 ^ 0 ≤ b; omega
        | cons y t ih =>
          intro b
          refine le_trans ?_ (ih (10 * b + (y.toNat - 48)))
          rw [List.length_cons, pow_succ]
          have : b * (10 ^ t.length * 10) = (10 * b) * 10 ^ t.length := by ring
          rw [this]
          exact Nat.mul_le_mul_right _ (by omega)
      have h3 := h2 t (10 * a + (d.toNat - 48))
      have hl' : s.length = t.length := by simpa using hl
      rw [hl'] at h1
      have h4 : (10 * a + (c.toNat - 48) + 1) * 10 ^ t.length ≤ (10 * a + (d.toNat - 48)) * 10 ^ t.length := Nat.mul_le_mul_right _ (by omega)
      omega
    · have := strLe_val s t x (10 * a + (c.toNat - 48)) hs.2 ht.2 (by simpa using hl) h'
      rw [h] at this
      rw [h]
      exact this
  | [], _ :: _, _, _, _, _, h, _ => by simp at h
  | _ :: _, [], _, _, _, _, h, _ => by simp at h

/-- The pattern matches exactly the files of the epochs below 10⁸. -/
theorem isMatch_iff (ext s : Str) : isMatch ext s = true ↔ ∃ e, e < 10 ^ 8 ∧ s = pre ++ pad8 e ++ ext := by
  unfold isMatch
  simp only [Bool.and_eq_true, decide_eq_true_eq]
  constructor
  · rintro ⟨⟨⟨h1, h2⟩, h3⟩, h4⟩
    obtain ⟨hv, hp⟩ := pad8_of_digits h3 h2
    refine ⟨_, hv, ?_⟩
    rw [hp, ← h1, ← h4]
    have : s.drop 20 = (s.drop 12).drop 8 := by rw [List.drop_drop]
    rw [this, List.append_assoc, List.take_append_drop, List.take_append_drop]
  · rintro ⟨e, he, rfl⟩
    have hl := pad8_length he
    have hpre : pre.length = 12 := rfl
    have h1 : (pre ++ pad8 e ++ ext).take 12 = pre := by
      rw [List.append_assoc, ← hpre, List.take_left]
    have h2 : ((pre ++ pad8 e ++ ext).drop 12).take 8 = pad8 e := by
      rw [List.append_assoc, ← hpre, List.drop_left, ← hl, List.take_left]
    have h3 : (pre ++ pad8 e ++ ext).drop 20 = ext := by
      have : (pre ++ pad8 e).length = 20 := by rw [List.length_append, hl, hpre]
      rw [← this, List.drop_left]
    rw [h1, h2, h3]
    exact ⟨⟨⟨rfl, hl⟩, (pad8_digits e).2.1⟩, rfl⟩

theorem mem_globbed (names : List Str) (ext f : Str) : f ∈ globbed names ext ↔ f ∈ names ∧ ∃ e, e < 10 ^ 8 ∧ f = pre ++ pad8 e ++ ext := by
  unfold globbed
  rw [List.mem_insertionSort, List.mem_filter, isMatch_iff]

instance : Std.Total (fun a b : Str => strLe a b = true) := ⟨strLe_total⟩
instance : IsTrans Str (fun a b : Str => strLe a b = true) := ⟨strLe_trans⟩

theorem globbed_sorted (names : List Str) (ext : Str) : (globbed names ext).Pairwise fun a b => strLe a b = true :=
  List.pairwise_insertionSort _ _

theorem pad8_le {e e' : Nat} {ext : Str} (he : e < 10 ^ 8) (he' : e' < 10 ^ 8) (h : strLe (pre ++ pad8 e ++ ext) (pre ++ pad8 e' ++ ext) = true) : e ≤ e' := by
  rw [List.append_assoc, List.append_assoc, strLe_prefix] at h
  have := strLe_val _ _ ext 0 (pad8_digits e).2.1 (pad8_digits e').2.1 (by rw [pad8_length he, pad8_length he']) h
  rwa [(pad8_digits e).2.2, (pad8_digits e').2.2] at this

theorem toModel_ext (e : Nat) (ext : Str) : toModel ext (pre ++ pad8 e ++ ext) = ckpt e := by
  unfold toModel ckpt
  have : (pre ++ pad8 e ++ ext).length - ext.length = (pre ++ pad8 e).length := by
    rw [List.length_append (as := pre ++ pad8 e)]
    omega
  rw [this, List.take_left]

theorem getLast_max {l : List Str} (h : l.Pairwise fun a b => strLe a b = true) {x : Str} (hx : l.getLast? = some x) :
    x ∈ l ∧ ∀ y ∈ l, strLe y x = true := by
  refine ⟨List.mem_of_getLast? hx, fun y hy => ?_⟩
  obtain ⟨l', rfl⟩ := List.getLast?_eq_some_iff.1 hx
  rcases List.mem_append.1 hy with h1 | h1
  · exact (List.pairwise_append.1 h).2.2 y h1 x (by simp)
  · rw [List.mem_singleton.1 h1]
    rcases strLe_total x x with h | h <;> exact h

theorem globbed_last {names : List Str} {ext f : Str} (h : (globbed names ext).getLast? = some f) :
    ∃ e, e < 10 ^ 8 ∧ f = pre ++ pad8 e ++ ext ∧ f ∈ names ∧ ∀ e', e' < 10 ^ 8 → pre ++ pad8 e' ++ ext ∈ names → e' ≤ e := by
  obtain ⟨h1, h2⟩ := getLast_max (globbed_sorted names ext) h
  obtain ⟨hn, e, he, rfl⟩ := (mem_globbed _ _ _).1 h1
  refine ⟨e, he, rfl, hn, fun e' he' hm => ?_⟩
  exact pad8_le he' he (h2 _ ((mem_globbed _ _ _).2 ⟨hm, e', he', rfl⟩))

/-- The checkpoint found is a file and the one of the largest epoch below 10⁸; none is found exactly if there is none. -/
theorem findLast_spec (names : List Str) :
    (∀ f, findLast names false = some f → ∃ e, e < 10 ^ 8 ∧ f = ckpt e ∧ f ∈ names ∧ ∀ e', e' < 10 ^ 8 → ckpt e' ∈ names → e' ≤ e)
      ∧ (findLast names false = none ↔ ∀ e, e < 10 ^ 8 → ckpt e ∉ names) := by
  have hx : findLast names false = (globbed names pth).getLast?.map (toModel pth) := by
    show (firstExt names [pth]).bind _ = _
    unfold firstExt firstExt
    split_ifs with h
    · rw [h]; rfl
    · rfl
  rw [hx]
  refine ⟨fun f h => ?_, ?_⟩
  · obtain ⟨g, hg, rfl⟩ := Option.map_eq_some_iff.1 h
    obtain ⟨e, he, rfl, hn, hm⟩ := globbed_last hg
    rw [toModel_ext]
    exact ⟨e, he, rfl, hn, hm⟩
  · rw [Option.map_eq_none_iff, List.getLast?_eq_none_iff, List.eq_nil_iff_forall_not_mem]
    constructor
    · intro h e he hm
      exact h _ ((mem_globbed _ _ _).2 ⟨hm, e, he, rfl⟩)
    · intro h f hf
      obtain ⟨hn, e, he, rfl⟩ := (mem_globbed _ _ _).1 hf
      exact h e he hn

example : findLast [ckpt 9, ckpt 10, ckpt 2, statsPath (ckpt 30)] false = some (ckpt 10) := by decide +kernel

/-- Epochs from 10⁸ on are saved under names of nine and more digits, which are never found. -/
theorem big_epoch {e : Nat} (h : 10 ^ 8 ≤ e) : findLast [ckpt e] false = none := by
  rw [(findLast_spec _).2]
  intro e' he' hm
  have := ckpt_inj (List.mem_singleton.1 hm)
  omega

theorem firstExt_some (names : List Str) : ∀ (l : List Str) p, firstExt names l = some p → p.1 ∈ l ∧ p.2 = globbed names p.1 ∧ p.2 ≠ []
  | [], p, h => by simp [firstExt] at h
  | ext :: l, p, h => by
    unfold firstExt at h
    split_ifs at h with h0
    · obtain ⟨h1, h2⟩ := firstExt_some names l p h
      exact ⟨List.mem_cons_of_mem _ h1, h2⟩
    · cases Option.some.inj h
      exact ⟨List.mem_cons_self, rfl, h0⟩

/-- All checkpoints: each is the model file's name of an epoch below 10⁸, ascending; without `any_path` exactly the files. -/
theorem findAll_spec (names : List Str) (anyPath : Bool) (l : List Str) (h : findAll names anyPath = some l) :
    ∃ es : List Nat, l = es.map ckpt ∧ es.Pairwise (· ≤ ·) ∧ (∀ e ∈ es, e < 10 ^ 8) ∧ es ≠ []
      ∧ ∃ ext ∈ exts anyPath, ∀ e, e ∈ es ↔ e < 10 ^ 8 ∧ pre ++ pad8 e ++ ext ∈ names := by
  unfold findAll at h
  obtain ⟨⟨ext, fs⟩, hp, rfl⟩ := Option.map_eq_some_iff.1 h
  obtain ⟨h1, h2, h3⟩ := firstExt_some _ _ _ hp
  dsimp only at h1 h2 h3 ⊢
  subst h2
  have hes : ∀ l : List Str, (∀ f ∈ l, ∃ e, e < 10 ^ 8 ∧ f = pre ++ pad8 e ++ ext) → ∃ es : List Nat, l = es.map (fun e => pre ++ pad8 e ++ ext) ∧ ∀ e ∈ es, e < 10 ^ 8 := by
    intro l
    induction l with
    | nil => intro _; exact ⟨[], rfl, by simp⟩
    | cons f l ih =>
      intro h
      obtain ⟨es, he, hlt⟩ := ih fun g hg => h g (List.mem_cons_of_mem _ hg)
      obtain ⟨e, h1, h2⟩ := h f List.mem_cons_self
      refine ⟨e :: es, by rw [List.map_cons, he, h2], fun x hx => ?_⟩
      rcases List.mem_cons.1 hx with rfl | hx
      · exact h1
      · exact hlt x hx
  obtain ⟨es, he, hlt⟩ := hes (globbed names ext) fun f hf => ((mem_globbed _ _ _).1 hf).2
  refine ⟨es, ?_, ?_, hlt, ?_, ext, h1, fun e => ?_⟩
  · rw [he, List.map_map]
    exact List.map_congr_left fun e _ => toModel_ext e ext
  · have := globbed_sorted names ext
    rw [he, List.pairwise_map] at this
    exact this.imp_of_mem fun ha hb hab => pad8_le (hlt _ ha) (hlt _ hb) hab
  · rintro rfl
    exact h3 he
  · have inj : ∀ {e e' : Nat}, pre ++ pad8 e ++ ext = pre ++ pad8 e' ++ ext → e = e' := by
      intro e e' h
      have h := List.append_cancel_left (List.append_cancel_right h)
      have := congrArg (val 0) h
      rwa [(pad8_digits e).2.2, (pad8_digits e').2.2] at this
    constructor
    · intro hm
      have : pre ++ pad8 e ++ ext ∈ globbed names ext := by rw [he]; exact List.mem_map.2 ⟨e, hm, rfl⟩
      exact ⟨hlt e hm, ((mem_globbed _ _ _).1 this).1⟩
    · rintro ⟨h1, h2⟩
      have : pre ++ pad8 e ++ ext ∈ globbed names ext := (mem_globbed _ _ _).2 ⟨h2, e, h1, rfl⟩
      rw [he] at this
      obtain ⟨e', h3, h4⟩ := List.mem_map.1 this
      rwa [inj h4] at h3

example : findAll [ckpt 9, optPath (ckpt 9), ckpt 10, ckpt 2] true = some [ckpt 2, ckpt 9, ckpt 10] := by decide +kernel

/-- With `any_path` the path may be of a model file that does not exist: statistics of an epoch are enough. -/
theorem any_missing (e : Nat) (h : e < 10 ^ 8) : ckpt e ∉ [statsPath (ckpt e)] ∧ findLast [statsPath (ckpt e)] true = some (ckpt e) := by
  have hs := (paths_ckpt e).2.2
  have hne : ckpt e ≠ statsPath (ckpt e) := by
    have := (three (ckpt e)).2.1
    rwa [(paths_ckpt e).1] at this
  refine ⟨by simpa using hne, ?_⟩
  have h1 : globbed [statsPath (ckpt e)] pth = [] := by
    rw [List.eq_nil_iff_forall_not_mem]
    intro f hf
    obtain ⟨hn, e', he', rfl⟩ := (mem_globbed _ _ _).1 hf
    have h0 := List.mem_singleton.1 hn
    rw [hs] at h0
    have := congrArg List.length h0
    simp [pad8_length he', pad8_length h, pth] at this
  have h2 : globbed [statsPath (ckpt e)] statsExt = [statsPath (ckpt e)] := by
    have : isMatch statsExt (statsPath (ckpt e)) = true := (isMatch_iff _ _).2 ⟨e, h, hs⟩
    simp [globbed, List.filter, this]
  have h3 : firstExt [statsPath (ckpt e)] (exts true) = some (statsExt, [statsPath (ckpt e)]) := by
    show firstExt _ [pth, statsExt, optExt] = _
    unfold firstExt
    rw [if_pos h1]
    unfold firstExt
    rw [h2, if_neg (by simp)]
  unfold findLast
  rw [h3]
  show some (toModel statsExt (statsPath (ckpt e))) = _
  rw [hs]
  exact congrArg some (toModel_ext e statsExt)

/-! ### Saving and loading -/

/-- What is saved is loaded, and no other file is touched. -/
theorem load_save (d : Dir C) (s : Str) (m st o : C) :
    load (save d s m st (some o)) s = .ok (m, some st, some o)
      ∧ ∀ n, n ≠ modelPath s → n ≠ optPath s → n ≠ statsPath s → save d s m st (some o) n = d n := by
  obtain ⟨h1, h2, h3⟩ := three s
  refine ⟨?_, fun n a b c => ?_⟩
  · simp [load, save, Dir.write, h1, h2, h3]
  · simp [save, Dir.write, a, b, c]

/-- Saving without an optimizer leaves an optimizer file of an earlier save, which is loaded with the new model. -/
theorem stale_optimizer (d : Dir C) (s : Str) (m st : C) : load (save d s m st none) s = .ok (m, some st, d (optPath s)) := by
  obtain ⟨h1, h2, h3⟩ := three s
  simp [load, save, Dir.write, h2, h3, h1.symm]

example : load (save (save (fun _ => none) (ckpt 3) 1 2 (some 3)) (ckpt 3) 4 5 none) (ckpt 3) = .ok (4, some 5, some 3) := by
  rw [stale_optimizer]
  have h : save (fun _ => none) (ckpt 3) 1 2 (some 3) (optPath (ckpt 3)) = some 3 := by decide +kernel
  rw [h]

/-- The uninterrupted safe saving is saving. -/
theorem safe_complete (d : Dir C) (s : Str) (m st : C) (o : Option C) {k : Nat} (hk : 3 ≤ k) : safeSave k d s m st o = save d s m st o := by
  obtain ⟨h1, h2, h3⟩ := three s
  unfold safeSave
  rw [List.take_of_length_le (by cases o <;> simp [saved] <;> omega)]
  funext n
  cases o <;> simp only [saved, writeAll, List.foldl_cons, List.foldl_nil, save, Dir.write] <;> split_ifs <;> simp_all

/-- Safe saving interrupted: before the first move nothing has changed; afterwards the statistics, then the model, are new beside old files. -/
theorem safe_interrupted (d : Dir C) (s : Str) (m st o m0 : C) (h : d (modelPath s) = some m0) :
    safeSave 0 d s m st (some o) = d
      ∧ load (safeSave 1 d s m st (some o)) s = .ok (m0, some st, d (optPath s))
      ∧ load (safeSave 2 d s m st (some o)) s = .ok (m, some st, d (optPath s)) := by
  obtain ⟨h1, h2, h3⟩ := three s
  refine ⟨rfl, ?_, ?_⟩
  · simp [load, safeSave, saved, writeAll, Dir.write, h2, h3, h]
  · simp [load, safeSave, saved, writeAll, Dir.write, h3, h1.symm, h2.symm]

theorem digits_takeWhile {ds : Str} (h : ds.all isDigit = true) {c : Char} {t : Str} (hc : isDigit c = false) : (ds ++ c :: t).takeWhile isDigit = ds := by
  rw [List.takeWhile_append_of_pos (fun x hx => List.all_eq_true.1 h x hx), List.takeWhile_cons_of_neg (by rw [hc]; simp), List.append_nil]

/-- A file belongs to one epoch. -/
theorem name_epoch {e e' : Nat} {x y : Str} (hx : ∃ c t, x = c :: t ∧ isDigit c = false) (hy : ∃ c t, y = c :: t ∧ isDigit c = false)
    (h : pre ++ pad8 e ++ x = pre ++ pad8 e' ++ y) : e = e' := by
  obtain ⟨c, t, rfl, hc⟩ := hx
  obtain ⟨c', t', rfl, hc'⟩ := hy
  rw [List.append_assoc, List.append_assoc] at h
  have h := congrArg (List.takeWhile isDigit) (List.append_cancel_left h)
  rw [digits_takeWhile (pad8_digits e).2.1 hc, digits_takeWhile (pad8_digits e').2.1 hc'] at h
  have := congrArg (val 0) h
  rwa [(pad8_digits e).2.2, (pad8_digits e').2.2] at this

/-- Saving one epoch keeps the others. -/
theorem save_other (d : Dir C) {e e' : Nat} (hne : e ≠ e') (m st : C) (o : Option C) : load (save d (ckpt e) m st o) (ckpt e') = load d (ckpt e') := by
  obtain ⟨a1, a2, a3⟩ := paths_ckpt e
  obtain ⟨b1, b2, b3⟩ := paths_ckpt e'
  have key : ∀ x y : Str, (∃ c t, x = c :: t ∧ isDigit c = false) → (∃ c t, y = c :: t ∧ isDigit c = false) →
      pre ++ pad8 e' ++ x ≠ pre ++ pad8 e ++ y := fun x y hx hy h => hne (name_epoch hx hy h).symm
  have hp : ∃ c t, pth = c :: t ∧ isDigit c = false := ⟨_, _, rfl, by decide⟩
  have ho : ∃ c t, "_opt.pth".toList = c :: t ∧ isDigit c = false := ⟨'_', "opt.pth".toList, rfl, by decide⟩
  have hs : ∃ c t, "_stats.jgz".toList = c :: t ∧ isDigit c = false := ⟨'_', "stats.jgz".toList, rfl, by decide⟩
  have hd : ∀ n, (n = ckpt e' ∨ n = optPath (ckpt e') ∨ n = statsPath (ckpt e')) → save d (ckpt e) m st o n = d n := by
    intro n hn
    have h1 : n ≠ modelPath (ckpt e) := by
      rw [a1]
      rcases hn with rfl | rfl | rfl
      · exact key _ _ hp hp
      · rw [b2]; exact key _ _ ho hp
      · rw [b3]; exact key _ _ hs hp
    have h2 : n ≠ optPath (ckpt e) := by
      rw [a2]
      rcases hn with rfl | rfl | rfl
      · exact key _ _ hp ho
      · rw [b2]; exact key _ _ ho ho
      · rw [b3]; exact key _ _ hs ho
    have h3 : n ≠ statsPath (ckpt e) := by
      rw [a3]
      rcases hn with rfl | rfl | rfl
      · exact key _ _ hp hs
      · rw [b2]; exact key _ _ ho hs
      · rw [b3]; exact key _ _ hs hs
    cases o <;> simp [save, Dir.write, h1, h2, h3]
  unfold load
  rw [b1, hd _ (Or.inl rfl), hd _ (Or.inr (Or.inl rfl)), hd _ (Or.inr (Or.inr rfl))]

/-- Purging an epoch removes its three files and nothing else. -/
theorem purge_spec (d : Dir C) (e : Nat) (n : Str) :
    purge d e n = if n = pre ++ pad8 e ++ ".pth".toList ∨ n = pre ++ pad8 e ++ "_opt.pth".toList ∨ n = pre ++ pad8 e ++ "_stats.jgz".toList then none else d n := by
  unfold purge
  rw [(paths_ckpt e).2.1, (paths_ckpt e).2.2]
  unfold Dir.remove ckpt pth
  split_ifs <;> simp_all

example : purge (save (save (fun _ => none) (ckpt 3) 1 2 (some 3)) (ckpt 4) 4 5 none) 3 (ckpt 4) = some 4
    ∧ purge (save (save (fun _ => none) (ckpt 3) 1 2 (some 3)) (ckpt 4) 4 5 none) 3 (statsPath (ckpt 3)) = none := by decide +kernel

end P3D.Checkpoints
