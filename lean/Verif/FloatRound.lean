/-
Rounding of rational numbers to binary floating point (round to nearest, ties to even), used for
`torch.tensor(..., dtype=torch.float32)` in io/obj_io.py:28-34 and `np.loadtxt(..., dtype=np.float32)` in
io/off_io.py:85, 183.  Overflow to infinity, NaN and signed zeros are not modelled.
-/
import Verif.Text
import Mathlib.Data.Int.Log

set_option linter.unusedSectionVars false
set_option linter.unusedSimpArgs false

namespace P3D.Flt
open Text

/-- Exponent of the last place of `x` with `p` bits. -/
def expo (p : Nat) (emin : Int) (x : ℚ) : Int := max (Int.log 2 |x| - (p - 1)) emin

/-- `x` rounded to `p` bits. -/
def fl (p : Nat) (emin : Int) (x : ℚ) : ℚ := rhe (x / 2 ^ expo p emin x) * 2 ^ expo p emin x

/-- IEEE single and double precision. -/
def f32 : ℚ → ℚ := fl 24 (-149)
def f64 : ℚ → ℚ := fl 53 (-1074)

/-- A decimal number read by Python or numpy as float64 and stored as float32. -/
def rd32 (x : ℚ) : ℚ := f32 (f64 x)

/-- Numbers with `p` bits. -/
def Rep (p : Nat) (emin : Int) (x : ℚ) : Prop := ∃ m e : Int, emin ≤ e ∧ |m| < 2 ^ p ∧ x = m * 2 ^ e

theorem zpow2_pos (e : Int) : (0 : ℚ) < 2 ^ e := zpow_pos (by norm_num) e

theorem log_le {x : ℚ} (hx : x ≠ 0) : (2 : ℚ) ^ Int.log 2 |x| ≤ |x| := by
  have := Int.zpow_log_le_self (b := 2) (by norm_num) (abs_pos.mpr hx)
  simpa using this

theorem lt_log (x : ℚ) : |x| < (2 : ℚ) ^ (Int.log 2 |x| + 1) := by
  have := Int.lt_zpow_succ_log_self (R := ℚ) (b := 2) (by norm_num) |x|
  simpa using this

theorem log_lt {x : ℚ} (hx : x ≠ 0) {e : Int} (h : |x| < 2 ^ e) : Int.log 2 |x| < e :=
  (zpow_lt_zpow_iff_right₀ (a := (2 : ℚ)) (by norm_num)).mp (lt_of_le_of_lt (log_le hx) h)

theorem le_log {x : ℚ} {e : Int} (h : 2 ^ e ≤ |x|) : e ≤ Int.log 2 |x| := by
  have := (zpow_lt_zpow_iff_right₀ (a := (2 : ℚ)) (by norm_num)).mp (lt_of_le_of_lt h (lt_log x))
  omega

/-- Numbers with `p` bits are not changed. -/
theorem fl_id {p : Nat} {emin : Int} {x : ℚ} (h : Rep p emin x) : fl p emin x = x := by
  obtain ⟨m, e, he, hm, rfl⟩ := h
  by_cases h0 : m = 0
  · subst h0
    simp [fl, rhe, expo]
  have hx : (m : ℚ) * 2 ^ e ≠ 0 := mul_ne_zero (by exact_mod_cast h0) (zpow2_pos e).ne'
  set E := expo p emin ((m : ℚ) * 2 ^ e) with hE
  have hle : E ≤ e := by
    rw [hE, expo]
    apply max_le _ he
    have : |(m : ℚ) * 2 ^ e| < 2 ^ ((p : Int) + e) := by
      rw [abs_mul, abs_of_pos (zpow2_pos e), zpow_add₀ (by norm_num), zpow_natCast]
      apply mul_lt_mul_of_pos_right _ (zpow2_pos e)
      exact_mod_cast hm
    have := log_lt hx this
    omega
  have e1 : (m : ℚ) * 2 ^ e / 2 ^ E = ((m * 2 ^ (e - E).toNat : Int) : ℚ) := by
    push_cast
    rw [mul_div_assoc, ← zpow_sub₀ (by norm_num), ← zpow_natCast, Int.toNat_of_nonneg (by omega)]
  unfold fl
  rw [← hE, e1, rhe_int, ← e1, div_mul_cancel₀ _ (zpow2_pos E).ne']

/-- The error is at most half a unit in the last place: relative to `x` at most `2 ^ -p`, or absolute `2 ^ emin / 2`. -/
theorem fl_err (p : Nat) (emin : Int) (x : ℚ) : |fl p emin x - x| ≤ 2 ^ expo p emin x / 2 ∧
    |fl p emin x - x| ≤ max (|x| / 2 ^ p) (2 ^ emin / 2) := by
  have h := (rhe_spec (x / 2 ^ expo p emin x)).1
  have hp := zpow2_pos (expo p emin x)
  have h1 : |fl p emin x - x| ≤ 2 ^ expo p emin x / 2 := by
    have e : fl p emin x - x = ((rhe (x / 2 ^ expo p emin x) : ℚ) - x / 2 ^ expo p emin x) * 2 ^ expo p emin x := by
      unfold fl
      rw [sub_mul, div_mul_cancel₀ _ hp.ne']
    rw [e, abs_mul, abs_of_pos hp]
    nlinarith
  refine ⟨h1, ?_⟩
  by_cases h0 : x = 0
  · subst h0
    simp only [fl, zero_div, abs_zero, sub_zero]
    rw [show rhe 0 = 0 from rhe_int 0]
    simp only [Int.cast_zero, zero_mul, abs_zero]
    exact le_max_left _ _
  refine h1.trans ?_
  unfold expo
  rcases max_choice (Int.log 2 |x| - ((p : Int) - 1)) emin with e | e <;> rw [e]
  · apply le_max_of_le_left
    have := log_le h0
    have e2 : (2 : ℚ) ^ (Int.log 2 |x| - ((p : Int) - 1)) / 2 = 2 ^ Int.log 2 |x| / 2 ^ p := by
      rw [show Int.log 2 |x| - ((p : Int) - 1) = Int.log 2 |x| - p + 1 by ring, zpow_add₀ (by norm_num), zpow_sub₀ (by norm_num),
        zpow_natCast]
      simp
    rw [e2]
    exact div_le_div_of_nonneg_right this (by positivity)
  · exact le_max_right _ _

/-- The result has `p` bits. -/
theorem fl_rep {p : Nat} (hp : 1 ≤ p) (emin : Int) (x : ℚ) : Rep p emin (fl p emin x) := by
  set E := expo p emin x with hE
  have hpos := zpow2_pos E
  have hlt : |x / 2 ^ E| < 2 ^ p := by
    rw [abs_div, abs_of_pos hpos, div_lt_iff₀ hpos, ← zpow_natCast, ← zpow_add₀ (by norm_num)]
    refine lt_of_lt_of_le (lt_log x) (zpow_le_zpow_right₀ (by norm_num) ?_)
    have : Int.log 2 |x| - ((p : Int) - 1) ≤ E := le_max_left _ _
    omega
  have hr := (rhe_spec (x / 2 ^ E)).1
  have hm : |rhe (x / 2 ^ E)| ≤ 2 ^ p := by
    have h1 : |(rhe (x / 2 ^ E) : ℚ)| < 2 ^ p + 1 := by
      have := abs_sub_abs_le_abs_sub (rhe (x / 2 ^ E) : ℚ) (x / 2 ^ E)
      linarith
    have h2 : ((|rhe (x / 2 ^ E)| : Int) : ℚ) < ((2 ^ p + 1 : Int) : ℚ) := by push_cast; exact h1
    have := Int.cast_lt.mp h2
    omega
  have hEm : emin ≤ E := le_max_right _ _
  rcases hm.lt_or_eq with h | h
  · exact ⟨_, E, hEm, h, rfl⟩
  · have e2 : (2 : Int) ^ p = 2 * 2 ^ (p - 1) := by
      rw [← pow_succ', Nat.sub_add_cancel hp]
    have h3 : rhe (x / 2 ^ E) = 2 * 2 ^ (p - 1) ∨ rhe (x / 2 ^ E) = 2 * -2 ^ (p - 1) := by
      rw [e2] at h
      rcases abs_choice (rhe (x / 2 ^ E)) with a | a
      · left; omega
      · right; omega
    have h4 : |(2 : Int) ^ (p - 1)| < 2 ^ p := by
      have : (0 : Int) < 2 ^ (p - 1) := by positivity
      rw [abs_of_pos this]; omega
    rcases h3 with h3 | h3
    · refine ⟨2 ^ (p - 1), E + 1, by omega, h4, ?_⟩
      unfold fl
      rw [← hE, h3, zpow_add₀ (by norm_num)]
      push_cast; ring
    · refine ⟨-2 ^ (p - 1), E + 1, by omega, by rw [abs_neg]; exact h4, ?_⟩
      unfold fl
      rw [← hE, h3, zpow_add₀ (by norm_num)]
      push_cast; ring

/-- Rounding twice is rounding once. -/
theorem fl_idem {p : Nat} (hp : 1 ≤ p) (emin : Int) (x : ℚ) : fl p emin (fl p emin x) = fl p emin x := fl_id (fl_rep hp emin x)

/-- A number within a quarter of the last place of a normal number is rounded to it. -/
theorem fl_near {p : Nat} {emin m e : Int} (he : emin ≤ e) (h1 : 2 ^ p ≤ 2 * |m|) (h2 : |m| < 2 ^ p) {y : ℚ}
    (hy : |y - m * 2 ^ e| < 2 ^ e / 4) : fl p emin y = m * 2 ^ e := by
  have hpos := zpow2_pos e
  have hm0 : m ≠ 0 := by
    rintro rfl
    have : (0 : Int) < 2 ^ p := by positivity
    simp at h1; omega
  have habs : |(m : ℚ) * 2 ^ e| = |(m : ℚ)| * 2 ^ e := by rw [abs_mul, abs_of_pos hpos]
  have hm1 : (1 : ℚ) ≤ |(m : ℚ)| := by
    have : 1 ≤ |m| := Int.one_le_abs hm0
    exact_mod_cast this
  have hml : (2 : ℚ) ^ p ≤ 2 * |(m : ℚ)| := by exact_mod_cast h1
  have hmu : |(m : ℚ)| + 1 ≤ (2 : ℚ) ^ p := by
    have : |m| + 1 ≤ 2 ^ p := h2
    exact_mod_cast this
  have ha := abs_sub_abs_le_abs_sub y (m * 2 ^ e)
  have hb := abs_sub_abs_le_abs_sub ((m : ℚ) * 2 ^ e) y
  rw [abs_sub_comm] at hb
  rw [habs] at ha hb
  have hy0 : y ≠ 0 := by
    rintro rfl
    simp only [abs_zero] at hb
    nlinarith
  have hup : |y| < 2 ^ ((p : Int) + e) := by
    rw [zpow_add₀ (by norm_num), zpow_natCast]
    nlinarith
  have hlo : (2 : ℚ) ^ ((p : Int) + e - 2) ≤ |y| := by
    rw [show (p : Int) + e - 2 = (p : Int) + e + (-2) by ring, zpow_add₀ (by norm_num), zpow_add₀ (by norm_num), zpow_natCast]
    norm_num
    nlinarith
  have hE : expo p emin y = e ∨ expo p emin y = e - 1 := by
    have a1 := log_lt hy0 hup
    have a2 := le_log hlo
    unfold expo
    rcases max_choice (Int.log 2 |y| - ((p : Int) - 1)) emin with a | a
    · rw [a]; omega
    · have := le_max_left (Int.log 2 |y| - ((p : Int) - 1)) emin
      rw [a] at this ⊢
      omega
  rcases hE with hE | hE
  · unfold fl
    rw [hE]
    congr 1
    have : |(m : ℚ) - y / 2 ^ e| < 1 / 4 := by
      have e1 : (m : ℚ) - y / 2 ^ e = -(y - m * 2 ^ e) / 2 ^ e := by field_simp; ring
      rw [e1, abs_div, abs_neg, abs_of_pos hpos, div_lt_iff₀ hpos]
      linarith
    rw [rhe_unique (m := m) (by linarith) (by intro h; rw [h] at this; norm_num at this)]
  · unfold fl
    rw [hE]
    have hh : (2 : ℚ) ^ (e - 1) = 2 ^ e / 2 := by rw [zpow_sub₀ (by norm_num), zpow_one]
    rw [hh]
    have : |((2 * m : Int) : ℚ) - y / (2 ^ e / 2)| < 1 / 2 := by
      have e1 : ((2 * m : Int) : ℚ) - y / (2 ^ e / 2) = -(y - m * 2 ^ e) / (2 ^ e / 2) := by push_cast; field_simp; ring
      rw [e1, abs_div, abs_neg, abs_of_pos (by linarith : (0 : ℚ) < 2 ^ e / 2), div_lt_iff₀ (by linarith)]
      linarith
    rw [rhe_unique (m := 2 * m) this.le (by intro h; rw [h] at this; norm_num at this)]
    push_cast; ring

/-- A float32 is a float64. -/
theorem rep_mono {p q : Nat} {a b : Int} (h : p ≤ q) (h' : b ≤ a) {x : ℚ} (hx : Rep p a x) : Rep q b x := by
  obtain ⟨m, e, he, hm, rfl⟩ := hx
  exact ⟨m, e, h'.trans he, hm.trans_le (pow_le_pow_right₀ (by norm_num) h), rfl⟩

/-- Reading does not change numbers that are float32, in particular integers up to `2 ^ 24`. -/
theorem rd32_id {x : ℚ} (h : Rep 24 (-149) x) : rd32 x = x := by
  unfold rd32 f32 f64
  rw [fl_id (rep_mono (by norm_num) (by norm_num) h), fl_id h]

theorem rep_int {n : Int} (h : |n| ≤ 2 ^ 24) : Rep 24 (-149) (n : ℚ) := by
  rcases h.lt_or_eq with h | h
  · exact ⟨n, 0, by norm_num, h, by simp⟩
  · rcases abs_choice n with a | a
    · exact ⟨2 ^ 23, 1, by norm_num, by norm_num, by rw [a] at h; rw [h]; norm_num⟩
    · exact ⟨-2 ^ 23, 1, by norm_num, by norm_num, by
        have : n = -2 ^ 24 := by rw [a] at h; omega
        rw [this]; norm_num⟩

theorem rd32_int {n : Int} (h : |n| ≤ 2 ^ 24) : rd32 n = n := rd32_id (rep_int h)

/-- A normal float32 with exponent `e` written with `k` decimal places such that `10 ^ -k ≤ 3/8 2 ^ e` is read back
exactly. -/
theorem rd32_decimal {m e : Int} (he : -149 ≤ e) (h1 : 2 ^ 23 ≤ |m|) (h2 : |m| < 2 ^ 24) {k : Nat}
    (hk : (1 : ℚ) / 10 ^ k ≤ 3 / 8 * 2 ^ e) : rd32 (decRound k (m * 2 ^ e)) = m * 2 ^ e := by
  have hpos := zpow2_pos e
  obtain ⟨h, _, _⟩ := decRound_spec k ((m : ℚ) * 2 ^ e)
  generalize decRound k ((m : ℚ) * 2 ^ e) = y at h
  have hh : |y - m * 2 ^ e| ≤ 3 / 16 * 2 ^ e := by
    refine h.trans ?_
    rw [mul_comm (2 : ℚ), ← div_div]
    linarith
  have hy : |y| ≤ 2 ^ 25 * 2 ^ e := by
    have ha := abs_sub_abs_le_abs_sub y (m * 2 ^ e)
    rw [abs_mul, abs_of_pos hpos] at ha
    have : |(m : ℚ)| ≤ 2 ^ 24 := by exact_mod_cast h2.le
    have hm' : |(m : ℚ)| * 2 ^ e ≤ 2 ^ 24 * 2 ^ e := mul_le_mul_of_nonneg_right this hpos.le
    rw [show (2 : ℚ) ^ 25 = 2 * 2 ^ 24 by norm_num]
    nlinarith
  have hd : |f64 y - y| ≤ 2 ^ e / 32 := by
    refine (fl_err 53 (-1074) y).2.trans (max_le ?_ ?_)
    · rw [div_le_iff₀ (by positivity)]
      refine hy.trans ?_
      rw [show (2 : ℚ) ^ 53 = 2 ^ 28 * 2 ^ 25 by norm_num]
      nlinarith
    · have : (2 : ℚ) ^ (-1074 : Int) ≤ 2 ^ (e - 4) := zpow_le_zpow_right₀ (by norm_num) (by omega)
      rw [zpow_sub₀ (by norm_num)] at this
      generalize (2 : ℚ) ^ (-1074 : Int) = z at this ⊢
      norm_num at this ⊢
      linarith
  unfold rd32 f32
  apply fl_near he (by norm_num; omega) (by norm_num; omega)
  have := abs_sub_le (f64 y) y (m * 2 ^ e)
  linarith

/-- A float32 of absolute value at least 32 keeps its value with the 6 decimal places of "%f". -/
theorem rd32_six {m e : Int} (he : -18 ≤ e) (h1 : 2 ^ 23 ≤ |m|) (h2 : |m| < 2 ^ 24) :
    rd32 (decRound 6 (m * 2 ^ e)) = m * 2 ^ e := by
  apply rd32_decimal (by omega) h1 h2
  have : (2 : ℚ) ^ (-18 : Int) ≤ 2 ^ e := zpow_le_zpow_right₀ (by norm_num) he
  norm_num at this ⊢
  linarith

/-- The first integer that is not a float32. -/
theorem rd32_big : rd32 16777217 = 16777216 := by
  have e1 : Int.log 2 |(16777217 : ℚ)| = 24 := by
    apply le_antisymm
    · have := log_lt (x := 16777217) (by norm_num) (e := 25) (by norm_num [abs_of_pos])
      omega
    · exact le_log (by norm_num [abs_of_pos])
  have e2 : f64 16777217 = 16777217 := fl_id ⟨16777217, 0, by norm_num, by norm_num, by norm_num⟩
  unfold rd32
  rw [e2]
  unfold f32 fl
  have : expo 24 (-149) 16777217 = 1 := by unfold expo; rw [e1]; norm_num
  rw [this]
  have : rhe (16777217 / 2 ^ (1 : Int)) = 8388608 := rhe_unique (by norm_num [abs_le]) (by norm_num)
  rw [this]
  norm_num

example : rd32 (decRound 6 (10000001 * 2 ^ (-18 : Int))) = 10000001 * 2 ^ (-18 : Int) := by
  have := rd32_six (m := 10000001) (e := -18) (by norm_num) (by norm_num) (by norm_num)
  simpa using this

end P3D.Flt
