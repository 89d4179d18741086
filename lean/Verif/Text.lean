/-
Python text functions used by the readers and writers of `pytorch3d/io`: `str.strip`, `str.split`, iteration over
the lines of a file, `int`, `float`, and the formats `%d` and `%.nf`.

Strings are lists of characters.  White space is the ASCII part of what Python calls white space.  `int` and `float`
accept ASCII digits without underscores; `float` does not accept `nan` and `inf`, and numbers are rational numbers
(the rounding to binary floating point numbers is a parameter of the readers).
-/
import Mathlib.Data.Rat.Floor
import Mathlib.Algebra.Order.Round
import Mathlib.Tactic.Linarith
import Mathlib.Tactic.FieldSimp
import Mathlib.Tactic.Ring
import Mathlib.Tactic.IntervalCases
import Mathlib.Tactic.NormNum
import Mathlib.Tactic.Positivity
import Mathlib.Tactic.Push
import Mathlib.Data.List.Basic

set_option linter.unusedSectionVars false

namespace P3D.Text

abbrev Str := List Char

/-! ## Model -/

/-- White space in the sense of `str.isspace`, for ASCII. -/
def isSpace (c : Char) : Bool := (9 ≤ c.toNat && c.toNat ≤ 13) || (28 ≤ c.toNat && c.toNat ≤ 32)

/-- `s.strip()` -/
def strip (s : Str) : Str := ((s.dropWhile isSpace).reverse.dropWhile isSpace).reverse

/-- Pieces between the characters that satisfy `p`. -/
def splitBy (p : Char → Bool) : Str → List Str
  | [] => [[]]
  | c :: s => if p c then [] :: splitBy p s else (c :: (splitBy p s).headD []) :: (splitBy p s).tail

/-- `s.split(c)` -/
def splitOn (c : Char) (s : Str) : List Str := splitBy (· = c) s

/-- `s.split()` -/
def words (s : Str) : List Str := (splitBy isSpace s).filter (· ≠ [])

/-- Iteration over a file opened in text mode, without the line ends. -/
def lines (s : Str) : List Str :=
  let l := splitOn '\n' s
  if l.getLast? = some [] then l.dropLast else l

/-- `sep.join(ws)` -/
def join (sep : Str) (ws : List Str) : Str := sep.intercalate ws

/-- `s.startswith(p)` -/
def startsWith (p s : Str) : Bool := p.isPrefixOf s

def isDigit (c : Char) : Bool := 48 ≤ c.toNat && c.toNat ≤ 57
def digitChar (d : Nat) : Char := Char.ofNat (48 + d)

/-- Value of a sequence of digits that continues `a`. -/
def val (a : Nat) : Str → Nat
  | [] => a
  | c :: s => val (10 * a + (c.toNat - 48)) s

def parseNat (s : Str) : Option Nat := if s ≠ [] ∧ s.all isDigit then some (val 0 s) else none

/-- A sign. -/
def sign (s : Str) : Bool × Str :=
  match s with
  | '-' :: s => (true, s)
  | '+' :: s => (false, s)
  | s => (false, s)

def signed (neg : Bool) (n : Nat) : Int := if neg then -n else n

/-- `int(s)`; `none` is a ValueError. -/
def parseInt (s : Str) : Option Int := (parseNat (sign s).2).map (signed (sign s).1)

/-- The digits after a decimal point, and the rest. -/
def fracPart (s : Str) : Str × Str :=
  match s with
  | '.' :: s => (s.takeWhile isDigit, s.dropWhile isDigit)
  | s => ([], s)

/-- The exponent. -/
def expPart (s : Str) : Option Int :=
  match s with
  | [] => some 0
  | 'e' :: s => parseInt s
  | 'E' :: s => parseInt s
  | _ => none

/-- `float(s)`; `none` is a ValueError. -/
def parseFloat (s : Str) : Option ℚ :=
  let t := (sign s).2
  let ip := t.takeWhile isDigit
  let f := fracPart (t.dropWhile isDigit)
  if ip = [] ∧ f.1 = [] then none
  else (expPart f.2).map fun e =>
    (if (sign s).1 then -1 else 1) * ((val 0 (ip ++ f.1) : ℚ) / 10 ^ f.1.length) * (10 : ℚ) ^ e

/-- The last `k` digits of `m`. -/
def fmtFixed : Nat → Nat → Str
  | 0, _ => []
  | k + 1, m => fmtFixed k (m / 10) ++ [digitChar (m % 10)]

def fmtNatAux : Nat → Nat → Str
  | 0, _ => []
  | f + 1, n => if n < 10 then [digitChar n] else fmtNatAux f (n / 10) ++ [digitChar (n % 10)]

def fmtNat (n : Nat) : Str := fmtNatAux (n + 1) n

/-- `"%d" % z` -/
def fmtInt (z : Int) : Str := if z < 0 then '-' :: fmtNat z.natAbs else fmtNat z.natAbs

/-- The nearest integer, the even one for ties. -/
def rhe (x : ℚ) : Int :=
  if x - ⌊x⌋ < 1 / 2 then ⌊x⌋ else if 1 / 2 < x - ⌊x⌋ then ⌊x⌋ + 1 else if ⌊x⌋ % 2 = 0 then ⌊x⌋ else ⌊x⌋ + 1

/-- `"%.kf" % x` -/
def fmtFloat (k : Nat) (x : ℚ) : Str :=
  let m := (rhe (|x| * 10 ^ k)).natAbs
  (if x < 0 then ['-'] else []) ++ fmtNat (m / 10 ^ k) ++ (if k = 0 then [] else '.' :: fmtFixed k (m % 10 ^ k))

/-! ## Specification -/

/-- `x` rounded to `k` decimal places. -/
def decRound (k : Nat) (x : ℚ) : ℚ := rhe (x * 10 ^ k) / 10 ^ k

/-! ## Proofs -/

/-! ### Rounding -/

theorem rhe_spec (x : ℚ) : |(rhe x : ℚ) - x| ≤ 1 / 2 ∧ (|(rhe x : ℚ) - x| = 1 / 2 → rhe x % 2 = 0) := by
  have h1 := Int.floor_le x
  have h2 := Int.lt_floor_add_one x
  unfold rhe
  split_ifs with a b c
  · rw [abs_of_nonpos (by linarith)]
    exact ⟨by linarith, fun h => by linarith⟩
  · push_cast
    rw [abs_of_nonneg (by linarith)]
    exact ⟨by linarith, fun h => by linarith⟩
  · rw [abs_of_nonpos (by linarith)]
    exact ⟨by linarith, fun _ => c⟩
  · push_cast
    rw [abs_of_nonneg (by linarith)]
    exact ⟨by linarith, fun _ => by omega⟩

theorem rhe_unique {x : ℚ} {m : Int} (h : |(m : ℚ) - x| ≤ 1 / 2) (h' : |(m : ℚ) - x| = 1 / 2 → m % 2 = 0) :
    rhe x = m := by
  obtain ⟨g, g'⟩ := rhe_spec x
  generalize rhe x = n at g g'
  rw [abs_le] at h g
  have l1 : (n : ℚ) ≤ m + 1 := by linarith
  have l2 : (m : ℚ) ≤ n + 1 := by linarith
  have l1' : n ≤ m + 1 := by exact_mod_cast l1
  have l2' : m ≤ n + 1 := by exact_mod_cast l2
  rcases (by omega : n = m ∨ n = m + 1 ∨ m = n + 1) with e | e | e
  · exact e
  · have e' : (n : ℚ) = m + 1 := by exact_mod_cast e
    have a1 : (m : ℚ) - x = -(1 / 2) := by linarith
    have a2 : (n : ℚ) - x = 1 / 2 := by linarith
    have b1 := h' (by rw [a1]; norm_num)
    have b2 := g' (by rw [a2]; norm_num)
    omega
  · have e' : (m : ℚ) = n + 1 := by exact_mod_cast e
    have a1 : (n : ℚ) - x = -(1 / 2) := by linarith
    have a2 : (m : ℚ) - x = 1 / 2 := by linarith
    have b1 := g' (by rw [a1]; norm_num)
    have b2 := h' (by rw [a2]; norm_num)
    omega

theorem rhe_int (m : Int) : rhe m = m := rhe_unique (by simp) (by simp)

theorem rhe_neg (x : ℚ) : rhe (-x) = -rhe x := by
  obtain ⟨g, g'⟩ := rhe_spec x
  have e : ((-rhe x : Int) : ℚ) - -x = -((rhe x : ℚ) - x) := by push_cast; ring
  apply rhe_unique
  · rw [e, abs_neg]; exact g
  · rw [e, abs_neg]
    intro h
    have := g' h
    omega

theorem rhe_nonneg {x : ℚ} (h : 0 ≤ x) : 0 ≤ rhe x := by
  obtain ⟨g, _⟩ := rhe_spec x
  rw [abs_le] at g
  have : (-1 : ℚ) < rhe x := by linarith
  have : -1 < rhe x := by exact_mod_cast this
  omega

/-- The rounded number is at most half a unit of the last place away, and unchanged if it has `k` decimal places. -/
theorem decRound_spec (k : Nat) (x : ℚ) : |decRound k x - x| ≤ 1 / (2 * 10 ^ k) ∧
    (∀ m : Int, x = m / 10 ^ k → decRound k x = x) ∧ ∃ m : Int, decRound k x = m / 10 ^ k := by
  have hp : (0 : ℚ) < 10 ^ k := by positivity
  refine ⟨?_, ?_, _, rfl⟩
  · obtain ⟨g, _⟩ := rhe_spec (x * 10 ^ k)
    unfold decRound
    rw [show (rhe (x * 10 ^ k) : ℚ) / 10 ^ k - x = ((rhe (x * 10 ^ k) : ℚ) - x * 10 ^ k) / 10 ^ k by field_simp,
      abs_div, abs_of_pos hp, div_le_div_iff₀ hp (by positivity)]
    nlinarith
  · intro m hm
    unfold decRound
    rw [show x * 10 ^ k = ((m : Int) : ℚ) by rw [hm]; field_simp, rhe_int, hm]

theorem decRound_abs (k : Nat) (x : ℚ) : decRound k x = (if x < 0 then -1 else 1) *
    (((rhe (|x| * 10 ^ k)).natAbs : ℚ) / 10 ^ k) := by
  have hn : ((rhe (|x| * 10 ^ k)).natAbs : ℚ) = (rhe (|x| * 10 ^ k) : ℚ) := by
    have h : 0 ≤ rhe (|x| * 10 ^ k) := rhe_nonneg (by positivity)
    rw [← Int.cast_natCast, Int.natAbs_of_nonneg h]
  rw [hn]
  unfold decRound
  split_ifs with h
  · rw [abs_of_neg h, neg_mul, neg_mul, rhe_neg]
    push_cast
    ring
  · rw [abs_of_nonneg (not_lt.mp h), one_mul]

/-! ### Digits -/

theorem digit_toNat {d : Nat} (h : d < 10) : (digitChar d).toNat = 48 + d := by
  interval_cases d <;> rfl

theorem digit_isDigit {d : Nat} (h : d < 10) : isDigit (digitChar d) = true := by
  unfold isDigit
  rw [digit_toNat h]
  simp
  omega

theorem isDigit_not_space {c : Char} (h : isDigit c = true) : isSpace c = false := by
  unfold isDigit at h
  unfold isSpace
  simp only [Bool.and_eq_true, decide_eq_true_eq] at h
  simp only [Bool.or_eq_false_iff, Bool.and_eq_false_iff, decide_eq_false_iff_not]
  omega

theorem isDigit_ne {c d : Char} (h : isDigit c = true) (hd : isDigit d = false) : c ≠ d := by
  rintro rfl
  rw [h] at hd
  exact absurd hd (by simp)

theorem val_append (a : Nat) (s t : Str) : val a (s ++ t) = val (val a s) t := by
  induction s generalizing a with
  | nil => rfl
  | cons c s ih => exact ih _

theorem val_digit (a : Nat) {d : Nat} (h : d < 10) : val a [digitChar d] = 10 * a + d := by
  show 10 * a + ((digitChar d).toNat - 48) = _
  rw [digit_toNat h]
  omega

theorem fmtFixed_spec (k m : Nat) : (fmtFixed k m).length = k ∧ (fmtFixed k m).all isDigit = true ∧
    ∀ a, val a (fmtFixed k m) = a * 10 ^ k + m % 10 ^ k := by
  induction k generalizing m with
  | zero => exact ⟨rfl, rfl, fun a => by rw [pow_zero, Nat.mod_one, Nat.mul_one]; rfl⟩
  | succ k ih =>
    obtain ⟨h1, h2, h3⟩ := ih (m / 10)
    have hd : m % 10 < 10 := Nat.mod_lt _ (by norm_num)
    refine ⟨by simp [fmtFixed, h1], by simp [fmtFixed, h2, digit_isDigit hd], fun a => ?_⟩
    rw [fmtFixed, val_append, h3, val_digit _ hd, pow_succ, Nat.mul_comm (10 ^ k) 10, Nat.mod_mul]
    ring

theorem fmtNatAux_spec (f n : Nat) (h : n < f) : fmtNatAux f n ≠ [] ∧ (fmtNatAux f n).all isDigit = true ∧
    val 0 (fmtNatAux f n) = n := by
  induction f generalizing n with
  | zero => omega
  | succ f ih =>
    unfold fmtNatAux
    split_ifs with h1
    · exact ⟨by simp, by simp [digit_isDigit h1], by rw [val_digit _ h1]; omega⟩
    · obtain ⟨i1, i2, i3⟩ := ih (n / 10) (by omega)
      have hd : n % 10 < 10 := Nat.mod_lt _ (by norm_num)
      refine ⟨by simp, by simp [i2, digit_isDigit hd], ?_⟩
      rw [val_append, i3, val_digit _ hd]
      omega

theorem fmtNat_spec (n : Nat) : fmtNat n ≠ [] ∧ (fmtNat n).all isDigit = true ∧ val 0 (fmtNat n) = n :=
  fmtNatAux_spec _ _ (by omega)

theorem sign_of_digits {s : Str} (h : s.all isDigit = true) : sign s = (false, s) := by
  match s with
  | [] => rfl
  | c :: s =>
    have hc : isDigit c = true := by simp at h; exact h.1
    unfold sign
    split
    · rename_i e; simp at e; rw [e.1] at hc; exact absurd hc (by decide)
    · rename_i e; simp at e; rw [e.1] at hc; exact absurd hc (by decide)
    · rfl

theorem sign_digits_append {s t : Str} (hs : s ≠ []) (h : s.all isDigit = true) : sign (s ++ t) = (false, s ++ t) := by
  match s, hs with
  | c :: s, _ =>
    have hc : isDigit c = true := by simp at h; exact h.1
    unfold sign
    split
    · rename_i e; simp at e; rw [e.1] at hc; exact absurd hc (by decide)
    · rename_i e; simp at e; rw [e.1] at hc; exact absurd hc (by decide)
    · rfl

/-- `int("%d" % z) == z` -/
theorem parseInt_fmtInt (z : Int) : parseInt (fmtInt z) = some z := by
  obtain ⟨h1, h2, h3⟩ := fmtNat_spec z.natAbs
  unfold parseInt fmtInt
  split_ifs with h
  · simp only [sign, parseNat, if_pos (And.intro h1 h2), h3, Option.map_some, signed, if_true]
    congr 1
    omega
  · rw [sign_of_digits h2]
    simp only [parseNat, if_pos (And.intro h1 h2), h3, Option.map_some, signed, Bool.false_eq_true, if_false]
    congr 1
    omega

theorem takeWhile_digits {s t : Str} (h : s.all isDigit = true) (ht : ∀ c r, t = c :: r → isDigit c = false) :
    (s ++ t).takeWhile isDigit = s ∧ (s ++ t).dropWhile isDigit = t := by
  induction s with
  | nil =>
    cases t with
    | nil => simp
    | cons c r => simp [ht c r rfl]
  | cons c s ih =>
    simp only [List.all_cons, Bool.and_eq_true] at h
    obtain ⟨a, b⟩ := ih h.2
    simp [h.1, a, b]

/-- `float("%.kf" % x)` is `x` rounded to `k` decimal places. -/
theorem parseFloat_fmtFloat (k : Nat) (x : ℚ) : parseFloat (fmtFloat k x) = some (decRound k x) := by
  set m := (rhe (|x| * 10 ^ k)).natAbs with hm
  obtain ⟨n1, n2, n3⟩ := fmtNat_spec (m / 10 ^ k)
  obtain ⟨f1, f2, f3⟩ := fmtFixed_spec k (m % 10 ^ k)
  set tail : Str := if k = 0 then [] else '.' :: fmtFixed k (m % 10 ^ k) with htail
  have e : fmtFloat k x = (if x < 0 then ['-'] else []) ++ (fmtNat (m / 10 ^ k) ++ tail) := by
    simp only [fmtFloat, ← hm, ← htail, List.append_assoc]
  have hs : sign (fmtFloat k x) = (decide (x < 0), fmtNat (m / 10 ^ k) ++ tail) := by
    rw [e]
    split_ifs with h
    · simp [sign, h]
    · simp only [List.nil_append]
      rw [sign_digits_append n1 n2]
      simp [h]
  have ht : ∀ c r, tail = c :: r → isDigit c = false := by
    intro c r h
    rw [htail] at h
    split_ifs at h
    simp only [List.cons.injEq] at h
    rw [← h.1]; rfl
  obtain ⟨t1, t2⟩ := takeWhile_digits (t := tail) n2 ht
  have hf : fracPart tail = (fmtFixed k (m % 10 ^ k), []) := by
    rw [htail]
    split_ifs with hk
    · subst hk; simp [fracPart, fmtFixed]
    · have := takeWhile_digits (t := []) f2 (by simp)
      simp only [List.append_nil] at this
      simp only [fracPart, this.1, this.2]
  unfold parseFloat
  simp only [hs, t1, t2, hf]
  rw [if_neg (by simp [n1])]
  simp only [expPart, Option.map_some, zpow_zero, mul_one, f1]
  congr 1
  rw [decRound_abs, ← hm, val_append, n3, f3]
  have : m / 10 ^ k * 10 ^ k + m % 10 ^ k % 10 ^ k = m := by
    rw [Nat.mod_mod]; exact Nat.div_add_mod' m (10 ^ k)
  rw [this]
  simp

/-! ### Splitting -/

theorem splitBy_free {p : Char → Bool} {w : Str} (h : ∀ c ∈ w, p c = false) : splitBy p w = [w] := by
  induction w with
  | nil => rfl
  | cons c w ih =>
    simp only [List.mem_cons, forall_eq_or_imp] at h
    simp [splitBy, h.1, ih h.2]

theorem splitBy_cons {p : Char → Bool} {w : Str} (h : ∀ c ∈ w, p c = false) {c : Char} (hc : p c = true) (s : Str) :
    splitBy p (w ++ c :: s) = w :: splitBy p s := by
  induction w with
  | nil => simp [splitBy, hc]
  | cons d w ih =>
    simp only [List.mem_cons, forall_eq_or_imp] at h
    simp [splitBy, h.1, ih h.2]

theorem join_cons_cons (sep a b : Str) (ws : List Str) : join sep (a :: b :: ws) = a ++ sep ++ join sep (b :: ws) := by
  simp [join, List.intercalate, List.intersperse]

/-- `sep.join` is inverted by `split(sep)`. -/
theorem splitOn_join {c : Char} {ws : List Str} (hne : ws ≠ []) (h : ∀ w ∈ ws, c ∉ w) :
    splitOn c (join [c] ws) = ws := by
  induction ws with
  | nil => exact absurd rfl hne
  | cons a ws ih =>
    have ha : ∀ d ∈ a, decide (d = c) = false := by
      intro d hd
      simp only [decide_eq_false_iff_not]
      rintro rfl
      exact h a List.mem_cons_self hd
    cases ws with
    | nil => simpa [splitOn, join, List.intercalate] using splitBy_free ha
    | cons b ws =>
      rw [join_cons_cons, List.append_assoc]
      have := ih (by simp) fun w hw => h w (List.mem_cons_of_mem _ hw)
      unfold splitOn at this ⊢
      rw [List.singleton_append, splitBy_cons ha (by simp), this]

/-- A word: no white space, not empty. -/
def IsWord (w : Str) : Prop := w ≠ [] ∧ ∀ c ∈ w, isSpace c = false

theorem words_word {w : Str} (h : IsWord w) : words w = [w] := by
  unfold words
  rw [splitBy_free h.2]
  simp [h.1]

theorem words_cons {w : Str} (h : IsWord w) (s : Str) : words (w ++ ' ' :: s) = w :: words s := by
  unfold words
  rw [splitBy_cons h.2 (by decide)]
  simp [h.1]

/-- `" ".join` of words is inverted by `split()`. -/
theorem words_join {ws : List Str} (h : ∀ w ∈ ws, IsWord w) : words (join [' '] ws) = ws := by
  induction ws with
  | nil => rfl
  | cons a ws ih =>
    have ha := h a List.mem_cons_self
    cases ws with
    | nil => simpa [join, List.intercalate] using words_word ha
    | cons b ws =>
      rw [join_cons_cons, List.append_assoc, List.singleton_append, words_cons ha,
        ih fun w hw => h w (List.mem_cons_of_mem _ hw)]

/-- Strings without white space at both ends. -/
theorem strip_id {s : Str} (h1 : ∀ c r, s = c :: r → isSpace c = false)
    (h2 : ∀ r c, s = r ++ [c] → isSpace c = false) : strip s = s := by
  unfold strip
  have e1 : s.dropWhile isSpace = s := by
    cases s with
    | nil => rfl
    | cons c r => simp [h1 c r rfl]
  have e2 : s.reverse.dropWhile isSpace = s.reverse := by
    rcases List.eq_nil_or_concat s with rfl | ⟨r, c, e⟩
    · rfl
    · rw [List.concat_eq_append] at e
      rw [e]
      simp [h2 r c e]
  rw [e1, e2, List.reverse_reverse]

theorem lines_cons {w : Str} (h : '\n' ∉ w) (s : Str) : lines (w ++ '\n' :: s) = w :: lines s := by
  have hw : ∀ d ∈ w, decide (d = '\n') = false := by
    intro d hd
    simp only [decide_eq_false_iff_not]
    rintro rfl
    exact h hd
  unfold lines splitOn
  rw [splitBy_cons hw (by simp)]
  have hne : splitBy (fun x => decide (x = '\n')) s ≠ [] := by
    cases s with
    | nil => simp [splitBy]
    | cons c s => unfold splitBy; split_ifs <;> simp
  obtain ⟨a, l, e⟩ := List.exists_cons_of_ne_nil hne
  simp only [e, List.getLast?_cons_cons]
  split_ifs
  · rfl
  · rfl

theorem lines_last {w : Str} (hw0 : w ≠ []) (h : '\n' ∉ w) : lines w = [w] := by
  have hw : ∀ d ∈ w, decide (d = '\n') = false := by
    intro d hd
    simp only [decide_eq_false_iff_not]
    rintro rfl
    exact h hd
  unfold lines splitOn
  rw [splitBy_free hw]
  simp [hw0]

theorem lines_nil : lines [] = [] := by simp [lines, splitOn, splitBy]

/-- Lines that all end with a line feed. -/
theorem lines_flatMap {ls : List Str} (h : ∀ w ∈ ls, '\n' ∉ w) (s : Str) :
    lines (ls.flatMap (· ++ ['\n']) ++ s) = ls ++ lines s := by
  induction ls with
  | nil => rfl
  | cons a ls ih =>
    simp only [List.flatMap_cons, List.append_assoc, List.cons_append, List.nil_append]
    rw [lines_cons (h a List.mem_cons_self), ih fun w hw => h w (List.mem_cons_of_mem _ hw)]

/-! ### Formatted numbers are words -/

/-- Characters of formatted numbers. -/
def numChar (c : Char) : Bool := isDigit c || c = '-' || c = '.'

theorem numChar_space {c : Char} (h : numChar c = true) : isSpace c = false ∧ c ≠ '/' ∧ c ≠ '\n' ∧ c ≠ '#' := by
  unfold numChar at h
  simp only [Bool.or_eq_true, decide_eq_true_eq] at h
  rcases h with (h | rfl) | rfl
  · exact ⟨isDigit_not_space h, isDigit_ne h rfl, isDigit_ne h rfl, isDigit_ne h rfl⟩
  · exact ⟨by decide, by decide, by decide, by decide⟩
  · exact ⟨by decide, by decide, by decide, by decide⟩

theorem num_of_digits {s : Str} (h : s.all isDigit = true) : s.all numChar = true := by
  rw [List.all_eq_true] at h ⊢
  exact fun c hc => by simp [numChar, h c hc]

theorem fmtInt_num (z : Int) : fmtInt z ≠ [] ∧ (fmtInt z).all numChar = true := by
  obtain ⟨h1, h2, _⟩ := fmtNat_spec z.natAbs
  unfold fmtInt
  split_ifs
  · refine ⟨by simp, ?_⟩
    rw [List.all_cons, num_of_digits h2]
    rfl
  · exact ⟨h1, num_of_digits h2⟩

theorem fmtFloat_num (k : Nat) (x : ℚ) : fmtFloat k x ≠ [] ∧ (fmtFloat k x).all numChar = true := by
  unfold fmtFloat
  simp only
  generalize (rhe (|x| * 10 ^ k)).natAbs = m
  obtain ⟨n1, n2, _⟩ := fmtNat_spec (m / 10 ^ k)
  obtain ⟨_, f2, _⟩ := fmtFixed_spec k (m % 10 ^ k)
  refine ⟨by simp [n1], ?_⟩
  rw [List.all_append, List.all_append, num_of_digits n2]
  have a : (if x < 0 then ['-'] else []).all numChar = true := by split_ifs <;> rfl
  have b : (if k = 0 then [] else '.' :: fmtFixed k (m % 10 ^ k)).all numChar = true := by
    split_ifs
    · rfl
    · rw [List.all_cons, num_of_digits f2]; rfl
  rw [a, b]
  rfl

theorem num_word {s : Str} (h : s ≠ [] ∧ s.all numChar = true) : IsWord s ∧ '/' ∉ s ∧ '\n' ∉ s ∧ '#' ∉ s := by
  have h2 := List.all_eq_true.mp h.2
  exact ⟨⟨h.1, fun c hc => (numChar_space (h2 c hc)).1⟩, fun hc => (numChar_space (h2 _ hc)).2.1 rfl,
    fun hc => (numChar_space (h2 _ hc)).2.2.1 rfl, fun hc => (numChar_space (h2 _ hc)).2.2.2 rfl⟩

-- examples
example : fmtFloat 6 (-1 / 3) = "-0.333333".toList ∧ parseFloat "-0.333333".toList = some (-333333 / 1000000) := by
  decide +kernel
example : fmtFloat 2 (1 / 8) = "0.12".toList ∧ fmtFloat 2 (3 / 8) = "0.38".toList ∧ fmtFloat 0 (5 / 2) = "2".toList := by
  decide +kernel
example : parseFloat "1.5e-3".toList = some (3 / 2000) ∧ parseFloat ".5".toList = some (1 / 2) ∧ parseFloat ".".toList = none := by
  decide +kernel
example : words " f  1//2\t3//4 \n".toList = ["f".toList, "1//2".toList, "3//4".toList] := by decide +kernel
example : splitOn '/' "4//1".toList = ["4".toList, [], "1".toList] := by decide +kernel
example : lines "ab\n\nc\n".toList = ["ab".toList, [], "c".toList] := by decide +kernel
example : parseInt "-12".toList = some (-12) ∧ parseInt "".toList = none ∧ fmtInt (-120) = "-120".toList := by decide +kernel

end P3D.Text
