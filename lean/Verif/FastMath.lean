/-
The fast exponential and logarithm of the sphere renderer (`csrc/pulsar/include/fastermath.h`), used for all weights (`FEXP`, `FLN` in `csrc/pulsar/host/commands.h:106-107` and `csrc/pulsar/gpu/commands.h:154-155`).

Numbers are elements of an ordered field, ℝ where true exponentials occur; the bits of a float are a natural number and `value` is the number they stand for.
Not modelled: the rounding of the float operations and constants (the conversion of the bits to a float in the logarithms included), the sign bit, and the flushing of subnormal numbers to zero.
-/
import Mathlib.Analysis.SpecialFunctions.Pow.Real
import Mathlib.Analysis.Complex.ExponentialBounds
import Mathlib.Analysis.Convex.SpecificFunctions.Basic
import Mathlib.Algebra.Order.Floor.Ring
import Mathlib.Data.Rat.Floor
import Mathlib.Algebra.Order.BigOperators.Group.List
import Mathlib.Tactic.Linarith
import Mathlib.Tactic.NormNum
import Mathlib.Tactic.FieldSimp
import Mathlib.Tactic.Positivity

set_option linter.unusedSectionVars false

namespace P3D.FastMath

section code
variable {K : Type} [Field K] [LinearOrder K] [IsStrictOrderedRing K] [FloorRing K]

/-- The number with these bits; `none` for infinity, NaN and negative numbers. -/
def value (i : Nat) : Option K :=
  if i / 2 ^ 23 = 0 then some ((i % 2 ^ 23 : Nat) * (2 : K) ^ (-149 : ℤ))
  else if i / 2 ^ 23 < 255 then some (((2 ^ 23 + i % 2 ^ 23 : Nat) : K) * (2 : K) ^ ((i / 2 ^ 23 : Nat) - 150 : ℤ))
  else none

/-- The constant of lines 61 and 80. -/
def c : K := 12694269504 / 100000000

/-- The bits of `fasterpow2` (lines 75-82); `none` if the number does not fit in 32 bits. -/
def pow2Bits (p : K) : Option Nat :=
  let clipp := if p < -126 then -126 else p
  let y := 2 ^ 23 * (clipp + c)
  if y < 2 ^ 32 then some ⌊y⌋.toNat else none

/-- `fasterpow2` (lines 75-82). -/
def fasterpow2 (p : K) : Option K := (pow2Bits p).bind value

/-- `fasterexp` (lines 84-86). -/
def fasterexp (p : K) : Option K := fasterpow2 (1442695040 / 1000000000 * p)

/-- `fasterlog2` (lines 54-62) of the number with these bits. -/
def log2Bits (i : Nat) : K := (i : K) * (11920928955078125 / 10 ^ 23) - c

/-- `fasterlog` (lines 64-73). -/
def logBits (i : Nat) : K := (i : K) * (82629582881927490 / 10 ^ 24) - 87989971088 / 10 ^ 9

/-! ### Order -/

theorem value_some (i : Nat) (h : i < 255 * 2 ^ 23) : ∃ v : K, value i = some v ∧ 0 ≤ v ∧ (0 < i → 0 < v) := by
  unfold value
  have h2 : ∀ z : ℤ, (0 : K) < 2 ^ z := fun z => zpow_pos (by norm_num) z
  by_cases h0 : i / 2 ^ 23 = 0
  · rw [if_pos h0]
    refine ⟨_, rfl, mul_nonneg (Nat.cast_nonneg _) (h2 _).le, fun hi => mul_pos ?_ (h2 _)⟩
    have : i % 2 ^ 23 = i := Nat.mod_eq_of_lt (by omega)
    rw [this]
    exact_mod_cast hi
  · rw [if_neg h0, if_pos (by omega)]
    have : (0 : K) < ((2 ^ 23 + i % 2 ^ 23 : Nat) : K) := by
      have : 0 < 2 ^ 23 + i % 2 ^ 23 := by omega
      exact_mod_cast this
    exact ⟨_, rfl, (mul_pos this (h2 _)).le, fun _ => mul_pos this (h2 _)⟩

/-- Between two powers of two: the number with exponent `e` and rest `m`. -/
theorem value_eq (i : Nat) (h0 : 2 ^ 23 ≤ i) (h : i < 255 * 2 ^ 23) :
    value i = some ((1 + ((i % 2 ^ 23 : Nat) : K) / 2 ^ 23) * (2 : K) ^ ((i / 2 ^ 23 : Nat) - 127 : ℤ)) := by
  unfold value
  rw [if_neg (by omega), if_pos (by omega)]
  congr 1
  have : (2 : K) ^ ((i / 2 ^ 23 : Nat) - 127 : ℤ) = 2 ^ ((i / 2 ^ 23 : Nat) - 150 : ℤ) * 2 ^ 23 := by
    rw [← zpow_natCast, ← zpow_add₀ (by norm_num)]
    congr 1
    push_cast
    ring
  rw [this]
  push_cast
  field_simp
  norm_num

/-- The number after the next: consecutive bits are ordered like their numbers. -/
theorem value_step (i : Nat) (h : i + 1 < 255 * 2 ^ 23) : ∃ v w : K, value i = some v ∧ value (i + 1) = some w ∧ v < w := by
  have h2 : ∀ z : ℤ, (0 : K) < 2 ^ z := fun z => zpow_pos (by norm_num) z
  by_cases hb : (i + 1) % 2 ^ 23 = 0
  · have hd : (i + 1) / 2 ^ 23 = i / 2 ^ 23 + 1 := by omega
    have hm : i % 2 ^ 23 = 2 ^ 23 - 1 := by omega
    unfold value
    rw [if_neg (show ¬ (i + 1) / 2 ^ 23 = 0 by omega), if_pos (show (i + 1) / 2 ^ 23 < 255 by omega), hd, hb, hm]
    by_cases h0 : i / 2 ^ 23 = 0
    · rw [if_pos h0, h0]
      refine ⟨_, _, rfl, rfl, ?_⟩
      have : (((0 + 1 : Nat) : ℤ) - 150) = -149 := by norm_num
      rw [this]
      refine mul_lt_mul_of_pos_right ?_ (h2 _)
      norm_num
    · rw [if_neg h0, if_pos (by omega)]
      refine ⟨_, _, rfl, rfl, ?_⟩
      have : (2 : K) ^ (((i / 2 ^ 23 + 1 : Nat) : ℤ) - 150) = 2 ^ (((i / 2 ^ 23 : Nat) : ℤ) - 150) * 2 := by
        rw [← zpow_add_one₀ (by norm_num)]
        congr 1
        push_cast
        ring
      rw [this, mul_comm _ (2 : K), ← mul_assoc]
      refine mul_lt_mul_of_pos_right ?_ (h2 _)
      norm_num
  · have hd : (i + 1) / 2 ^ 23 = i / 2 ^ 23 := by omega
    have hm : (i + 1) % 2 ^ 23 = i % 2 ^ 23 + 1 := by omega
    unfold value
    rw [hd, hm]
    by_cases h0 : i / 2 ^ 23 = 0
    · rw [if_pos h0, if_pos h0]
      refine ⟨_, _, rfl, rfl, mul_lt_mul_of_pos_right ?_ (h2 _)⟩
      push_cast
      linarith
    · rw [if_neg h0, if_neg h0, if_pos (by omega), if_pos (by omega)]
      refine ⟨_, _, rfl, rfl, mul_lt_mul_of_pos_right ?_ (h2 _)⟩
      push_cast
      linarith

/-- Numbers are ordered like their bits. -/
theorem value_lt (i j : Nat) (hij : i < j) (h : j < 255 * 2 ^ 23) (v w : K) (hv : value i = some v) (hw : value j = some w) : v < w := by
  induction j, hij using Nat.le_induction generalizing w with
  | base =>
    obtain ⟨v', w', h1, h2, h3⟩ := value_step (K := K) i h
    rw [hv] at h1
    rw [hw] at h2
    rwa [Option.some.inj h1, Option.some.inj h2]
  | succ j hj ih =>
    obtain ⟨v', w', h1, h2, h3⟩ := value_step (K := K) j h
    rw [hw] at h2
    rw [Option.some.inj h2]
    exact (ih (by omega) v' h1).trans h3

/-- The bits of a power in the range. -/
theorem pow2Bits_spec (p : K) (hp : p < 128) :
    ∃ i : Nat, pow2Bits p = some i ∧ 0 < i ∧ i < 255 * 2 ^ 23 ∧ (i : K) ≤ 2 ^ 23 * (max p (-126) + c) ∧ 2 ^ 23 * (max p (-126) + c) < (i : K) + 1 := by
  have hcl : (if p < -126 then (-126 : K) else p) = max p (-126) := by
    split_ifs with h
    · exact (max_eq_right h.le).symm
    · exact (max_eq_left (not_lt.mp h)).symm
  have hlo : (-126 : K) ≤ max p (-126) := le_max_right _ _
  have hhi : max p (-126) < (128 : K) := max_lt hp (by norm_num)
  unfold pow2Bits
  dsimp only
  rw [hcl]
  generalize max p (-126) = q at *
  have hy0 : (1 : K) ≤ 2 ^ 23 * (q + c) := by
    unfold c
    linarith
  have hy1 : 2 ^ 23 * (q + c) < (255 * 2 ^ 23 : K) := by
    unfold c
    linarith
  rw [if_pos (by linarith)]
  have hf0 : (1 : ℤ) ≤ ⌊2 ^ 23 * (q + (c : K))⌋ := Int.le_floor.2 (by exact_mod_cast hy0)
  have hc : ((⌊2 ^ 23 * (q + (c : K))⌋.toNat : ℕ) : ℤ) = ⌊2 ^ 23 * (q + (c : K))⌋ := Int.toNat_of_nonneg (by omega)
  have hck : ((⌊2 ^ 23 * (q + (c : K))⌋.toNat : ℕ) : K) = ((⌊2 ^ 23 * (q + (c : K))⌋ : ℤ) : K) := by
    exact_mod_cast congrArg (Int.cast : ℤ → K) hc
  have hf1 : ⌊2 ^ 23 * (q + (c : K))⌋ < 255 * 2 ^ 23 := Int.floor_lt.2 (by push_cast; linarith)
  refine ⟨_, rfl, by omega, by omega, ?_, ?_⟩
  · rw [hck]
    exact Int.floor_le _
  · rw [hck]
    exact Int.lt_floor_add_one _

/-- In the range the result is a positive number. -/
theorem pow2_positive (p : K) (hp : p < 128) : ∃ v, fasterpow2 p = some v ∧ 0 < v := by
  obtain ⟨i, h1, h2, h3, -⟩ := pow2Bits_spec p hp
  obtain ⟨v, hv, -, h0⟩ := value_some (K := K) i h3
  exact ⟨v, by unfold fasterpow2; rw [h1]; exact hv, h0 h2⟩

/-- Large exponents give infinity or NaN, or do not fit in 32 bits. -/
theorem pow2_overflow (p : K) (hp : 130 ≤ p) : fasterpow2 p = none := by
  unfold fasterpow2 pow2Bits
  dsimp only
  rw [if_neg (by linarith : ¬ p < -126)]
  split_ifs with h
  · have hf : (255 * 2 ^ 23 : ℤ) ≤ ⌊2 ^ 23 * (p + (c : K))⌋ := Int.le_floor.2 (by
      push_cast
      unfold c
      linarith)
    show value _ = none
    unfold value
    rw [if_neg (by omega), if_neg (by omega)]
  · rfl

/-- A larger exponent never gives a smaller result; exponents that differ by more than 2⁻²³ and are not cut off give different ones. -/
theorem pow2_mono (p q : K) (hpq : p ≤ q) (hq : q < 128) (v w : K) (hv : fasterpow2 p = some v) (hw : fasterpow2 q = some w) :
    v ≤ w ∧ (-126 ≤ p → p + 1 / 2 ^ 23 ≤ q → v < w) := by
  obtain ⟨i, a1, a2, a3, a4, a5⟩ := pow2Bits_spec p (by linarith)
  obtain ⟨j, b1, b2, b3, b4, b5⟩ := pow2Bits_spec q hq
  unfold fasterpow2 at hv hw
  rw [a1] at hv
  rw [b1] at hw
  have hv : value i = some v := hv
  have hw : value j = some w := hw
  have hmax : max p (-126) ≤ max q (-126) := max_le_max_right _ hpq
  have hij : i ≤ j := by
    have : (i : K) < (j : K) + 1 := by linarith
    have : i < j + 1 := by exact_mod_cast this
    omega
  refine ⟨?_, fun hp h => ?_⟩
  · rcases Nat.eq_or_lt_of_le hij with rfl | hlt
    · rw [hv] at hw
      exact (Option.some.inj hw).le
    · exact (value_lt i j hlt b3 v w hv hw).le
  · rw [max_eq_left hp] at a4
    rw [max_eq_left (by linarith [show (0 : K) < 1 / 2 ^ 23 by norm_num] : (-126 : K) ≤ q)] at b5
    have h23 : (2 : K) ^ 23 * (1 / 2 ^ 23) = 1 := by norm_num
    have : (i : K) < (j : K) := by nlinarith
    exact value_lt i j (by exact_mod_cast this) b3 v w hv hw

/-- Far exponents are cut off: everything below -126 has the same, positive result. -/
theorem pow2_clipped (p : K) (hp : p ≤ -126) : fasterpow2 p = fasterpow2 (-126) := by
  unfold fasterpow2 pow2Bits
  dsimp only
  rw [if_neg (lt_irrefl (-126 : K))]
  rcases lt_or_eq_of_le hp with h | h
  · rw [if_pos h]
  · rw [h, if_neg (lt_irrefl _)]

/-- The logarithm undoes the power, to one bit. -/
theorem log2_pow2 (p : K) (h0 : -126 ≤ p) (hp : p < 128) :
    ∃ i, pow2Bits p = some i ∧ log2Bits i ≤ p ∧ p < log2Bits i + 1 / 2 ^ 23 := by
  obtain ⟨i, a1, a2, a3, a4, a5⟩ := pow2Bits_spec p hp
  rw [max_eq_left h0] at a4 a5
  have hk : (11920928955078125 / 10 ^ 23 : K) = 1 / 2 ^ 23 := by norm_num
  refine ⟨i, a1, ?_, ?_⟩
  · unfold log2Bits
    rw [hk]
    linarith
  · unfold log2Bits
    rw [hk]
    linarith

/-- The logarithms are increasing in the bits, so in the numbers. -/
theorem log_mono (i j : Nat) (h : i < j) : log2Bits (K := K) i < log2Bits j ∧ logBits (K := K) i < logBits j := by
  have h : (i : K) < (j : K) := by exact_mod_cast h
  unfold log2Bits logBits
  constructor <;> linarith

end code

/-- The exponential of zero is not one: it is between 0.9713 and 0.9714. -/
theorem exp_zero : ∃ v : ℝ, fasterexp (0 : ℝ) = some v ∧ 9713 / 10000 < v ∧ v < 9714 / 10000 := by
  have hf : ⌊(2 : ℝ) ^ 23 * (0 + c)⌋ = 1064872507 := by
    rw [Int.floor_eq_iff]
    unfold c
    constructor <;> norm_num
  refine ⟨(1 + ((1064872507 % 2 ^ 23 : Nat) : ℝ) / 2 ^ 23) * (2 : ℝ) ^ ((1064872507 / 2 ^ 23 : Nat) - 127 : ℤ), ?_, ?_, ?_⟩
  · unfold fasterexp fasterpow2 pow2Bits
    dsimp only
    rw [mul_zero, if_neg (show ¬ (0 : ℝ) < -126 by norm_num), if_pos (show (2 : ℝ) ^ 23 * (0 + c) < 2 ^ 32 by unfold c; norm_num), hf]
    exact value_eq 1064872507 (by norm_num) (by norm_num)
  · norm_num
  · norm_num

example : value (K := ℚ) 0x3f800000 = some 1 := by
  rw [value_eq _ (by norm_num) (by norm_num)]
  norm_num

example : logBits (K := ℚ) 0x3f800000 ≠ 0 := by
  unfold logBits
  norm_num

/-! ### Errors -/

/-- A straight line between powers of two, from above. -/
theorem two_rpow_le (f : ℝ) (h0 : 0 ≤ f) (h1 : f ≤ 1) : (2 : ℝ) ^ f ≤ 1 + f := by
  have := rpow_one_add_le_one_add_mul_self (s := 1) (by norm_num) h0 h1
  norm_num at this
  linarith

/-- And from below, with the best constant. -/
theorem one_add_le (f : ℝ) : 1 + f ≤ 2 / (Real.exp 1 * Real.log 2) * (2 : ℝ) ^ f := by
  have hl : 0 < Real.log 2 := Real.log_pos (by norm_num)
  have h := Real.add_one_le_exp ((1 + f) * Real.log 2 - 1)
  have he : Real.exp ((1 + f) * Real.log 2 - 1) = 2 * (2 : ℝ) ^ f / Real.exp 1 := by
    rw [Real.exp_sub, Real.rpow_def_of_pos (by norm_num : (0 : ℝ) < 2), add_mul, one_mul, Real.exp_add, Real.exp_log (by norm_num), mul_comm f]
  rw [he] at h
  have he0 := Real.exp_pos 1
  rw [div_mul_eq_mul_div, le_div_iff₀ (mul_pos he0 hl)]
  have h' : (1 + f) * Real.log 2 ≤ 2 * 2 ^ f / Real.exp 1 := by linarith
  rw [le_div_iff₀ he0] at h'
  linarith

/-- The relative error of the fast power of two, for all exponents for which neither it is cut off nor the number is subnormal: the factor is between 2^(c - 127 - 2⁻²³) and 2^(c - 127) · 2 / (e · ln 2), about 0.961 and 1.0201. -/
theorem pow2_error (p : ℝ) (h0 : -125 ≤ p) (hp : p < 128) :
    ∃ v, fasterpow2 p = some v ∧ (2 : ℝ) ^ p * 2 ^ (c - 127 - 1 / 2 ^ 23 : ℝ) ≤ v ∧ v ≤ 2 ^ p * (2 ^ (c - 127 : ℝ) * (2 / (Real.exp 1 * Real.log 2))) := by
  obtain ⟨i, a1, a2, a3, a4, a5⟩ := pow2Bits_spec p hp
  rw [max_eq_left (by linarith)] at a4 a5
  have hi : 2 ^ 23 ≤ i := by
    have : (2 ^ 23 : ℝ) < (i : ℝ) + 1 := by
      unfold c at a5
      linarith
    have : 2 ^ 23 < i + 1 := by exact_mod_cast this
    omega
  refine ⟨_, by unfold fasterpow2; rw [a1]; exact value_eq i hi a3, ?_⟩
  set f : ℝ := ((i % 2 ^ 23 : Nat) : ℝ) / 2 ^ 23 with hf
  set e : ℤ := ((i / 2 ^ 23 : Nat) : ℤ) - 127 with he
  have hf0 : 0 ≤ f := by positivity
  have hf1 : f ≤ 1 := by
    rw [hf, div_le_one (by positivity)]
    have : i % 2 ^ 23 ≤ 2 ^ 23 := by omega
    exact_mod_cast this
  have hsum : (i : ℝ) / 2 ^ 23 - 127 = f + e := by
    have h : i = 2 ^ 23 * (i / 2 ^ 23) + i % 2 ^ 23 := (Nat.div_add_mod _ _).symm
    have h' : (i : ℝ) = 2 ^ 23 * ((i / 2 ^ 23 : Nat) : ℝ) + ((i % 2 ^ 23 : Nat) : ℝ) := by exact_mod_cast h
    rw [hf, he, h', Int.cast_sub, Int.cast_natCast, Int.cast_ofNat]
    generalize ((i / 2 ^ 23 : Nat) : ℝ) = x
    generalize ((i % 2 ^ 23 : Nat) : ℝ) = y
    field_simp
    ring
  have hpow : (2 : ℝ) ^ f * (2 : ℝ) ^ e = (2 : ℝ) ^ ((i : ℝ) / 2 ^ 23 - 127) := by
    rw [hsum, Real.rpow_add (by norm_num), Real.rpow_intCast]
  have he0 : (0 : ℝ) < 2 ^ e := zpow_pos (by norm_num) e
  constructor
  · calc (2 : ℝ) ^ p * 2 ^ (c - 127 - 1 / 2 ^ 23 : ℝ) = 2 ^ (p + (c - 127 - 1 / 2 ^ 23)) := (Real.rpow_add (by norm_num) _ _).symm
      _ ≤ 2 ^ ((i : ℝ) / 2 ^ 23 - 127) := Real.rpow_le_rpow_of_exponent_le (by norm_num) (by linarith)
      _ = 2 ^ f * 2 ^ e := hpow.symm
      _ ≤ (1 + f) * 2 ^ e := mul_le_mul_of_nonneg_right (two_rpow_le f hf0 hf1) he0.le
  · have hC : (0 : ℝ) ≤ 2 / (Real.exp 1 * Real.log 2) := div_nonneg (by norm_num) (mul_pos (Real.exp_pos 1) (Real.log_pos (by norm_num))).le
    calc (1 + f) * (2 : ℝ) ^ e ≤ (2 / (Real.exp 1 * Real.log 2) * 2 ^ f) * 2 ^ e := mul_le_mul_of_nonneg_right (one_add_le f) he0.le
      _ = 2 / (Real.exp 1 * Real.log 2) * 2 ^ ((i : ℝ) / 2 ^ 23 - 127) := by rw [mul_assoc, hpow]
      _ ≤ 2 / (Real.exp 1 * Real.log 2) * 2 ^ (p + (c - 127)) := mul_le_mul_of_nonneg_left (Real.rpow_le_rpow_of_exponent_le (by norm_num) (by linarith)) hC
      _ = 2 ^ p * (2 ^ (c - 127 : ℝ) * (2 / (Real.exp 1 * Real.log 2))) := by
        rw [Real.rpow_add (by norm_num)]
        ring

/-- The fast exponential of the exponents of the renderer, which are never positive: at most 4 percent too small and at most 2.2 percent too large. -/
theorem exp_error (p : ℝ) (h0 : -86 ≤ p) (hp : p ≤ 0) :
    ∃ v, fasterexp p = some v ∧ 96 / 100 * Real.exp p ≤ v ∧ v ≤ 1022 / 1000 * Real.exp p := by
  obtain ⟨v, hv, hlo, hhi⟩ := pow2_error (1442695040 / 1000000000 * p) (by linarith) (by linarith)
  refine ⟨v, hv, ?_, ?_⟩
  all_goals
    have hl1 := Real.log_two_gt_d9
    have hl2 := Real.log_two_lt_d9
  · rw [← Real.rpow_add (by norm_num), Real.rpow_def_of_pos (by norm_num)] at hlo
    refine le_trans ?_ hlo
    have hsplit : Real.log 2 * (1442695040 / 1000000000 * p + (c - 127 - 1 / 2 ^ 23)) = p + (p * (Real.log 2 * (1442695040 / 1000000000) - 1) + Real.log 2 * (c - 127 - 1 / 2 ^ 23)) := by ring
    rw [hsplit, Real.exp_add, mul_comm (96 / 100 : ℝ)]
    refine mul_le_mul_of_nonneg_left ?_ (Real.exp_pos p).le
    refine le_trans ?_ (Real.add_one_le_exp _)
    have h1 : -(1 / 10000000 : ℝ) ≤ p * (Real.log 2 * (1442695040 / 1000000000) - 1) := by nlinarith
    unfold c
    nlinarith
  · have he := Real.exp_one_gt_d9
    refine le_trans hhi ?_
    rw [Real.rpow_def_of_pos (by norm_num), Real.rpow_def_of_pos (by norm_num)]
    have hsplit : Real.log 2 * (1442695040 / 1000000000 * p) = p + p * (Real.log 2 * (1442695040 / 1000000000) - 1) := by ring
    rw [hsplit, Real.exp_add]
    have hC : 2 / (Real.exp 1 * Real.log 2) ≤ 10615 / 10000 := by
      rw [div_le_iff₀ (mul_pos (Real.exp_pos 1) (by linarith))]
      nlinarith
    have hC0 : 0 < 2 / (Real.exp 1 * Real.log 2) := div_pos (by norm_num) (mul_pos (Real.exp_pos 1) (by linarith))
    set t : ℝ := p * (Real.log 2 * (1442695040 / 1000000000) - 1) + Real.log 2 * (c - 127) with ht
    have hexp : Real.exp p * Real.exp (p * (Real.log 2 * (1442695040 / 1000000000) - 1)) * (Real.exp (Real.log 2 * (c - 127)) * (2 / (Real.exp 1 * Real.log 2))) = Real.exp p * (Real.exp t * (2 / (Real.exp 1 * Real.log 2))) := by
      rw [ht, Real.exp_add]
      ring
    rw [hexp, mul_comm (1022 / 1000 : ℝ)]
    refine mul_le_mul_of_nonneg_left ?_ (Real.exp_pos p).le
    have h1 : p * (Real.log 2 * (1442695040 / 1000000000) - 1) ≤ 1 / 1000000 := by nlinarith
    have ht1 : t ≤ -(397 / 10000) := by
      rw [ht]
      unfold c
      nlinarith
    have hexpt : Real.exp t ≤ 9619 / 10000 := by
      have h2 := Real.add_one_le_exp (-t)
      rw [Real.exp_neg] at h2
      have h3 : (10397 / 10000 : ℝ) ≤ (Real.exp t)⁻¹ := by linarith
      have h4 := Real.exp_pos t
      rw [le_inv_comm₀ (by norm_num) h4] at h3
      refine h3.trans ?_
      norm_num
    calc Real.exp t * (2 / (Real.exp 1 * Real.log 2)) ≤ 9619 / 10000 * (10615 / 10000) := mul_le_mul hexpt hC hC0.le (by norm_num)
      _ ≤ 1022 / 1000 := by norm_num

/-- The fast logarithm of all normal numbers: at most 0.022 too small and at most 0.04 too large. -/
theorem log_error (i : Nat) (h0 : 2 ^ 23 ≤ i) (h : i < 255 * 2 ^ 23) :
    ∃ v : ℝ, value i = some v ∧ Real.log v - 22 / 1000 ≤ logBits i ∧ logBits i ≤ Real.log v + 4 / 100 := by
  refine ⟨_, value_eq i h0 h, ?_⟩
  have hl1 := Real.log_two_gt_d9
  have hl2 := Real.log_two_lt_d9
  have he1 := Real.exp_one_gt_d9
  set f : ℝ := ((i % 2 ^ 23 : Nat) : ℝ) / 2 ^ 23 with hf
  have hf0 : 0 ≤ f := by positivity
  have hf1 : f ≤ 1 := by
    rw [hf, div_le_one (by positivity)]
    have : i % 2 ^ 23 ≤ 2 ^ 23 := by omega
    exact_mod_cast this
  have hC : 2 / (Real.exp 1 * Real.log 2) ≤ 10615 / 10000 := by
    rw [div_le_iff₀ (mul_pos (Real.exp_pos 1) (by linarith))]
    nlinarith
  have hC0 : 0 < 2 / (Real.exp 1 * Real.log 2) := div_pos (by norm_num) (mul_pos (Real.exp_pos 1) (by linarith))
  have hlow : f * Real.log 2 ≤ Real.log (1 + f) := by
    rw [← Real.log_rpow (by norm_num)]
    exact Real.log_le_log (Real.rpow_pos_of_pos (by norm_num) _) (two_rpow_le f hf0 hf1)
  have hup : Real.log (1 + f) ≤ f * Real.log 2 + 615 / 10000 := by
    have h1 := Real.log_le_log (by linarith) (one_add_le f)
    rw [Real.log_mul hC0.ne' (Real.rpow_pos_of_pos (by norm_num) _).ne', Real.log_rpow (by norm_num)] at h1
    have h2 := Real.log_le_sub_one_of_pos hC0
    linarith
  have hlog : Real.log ((1 + f) * (2 : ℝ) ^ ((i / 2 ^ 23 : Nat) - 127 : ℤ)) = Real.log (1 + f) + (((i / 2 ^ 23 : Nat) : ℝ) - 127) * Real.log 2 := by
    rw [Real.log_mul (by linarith) (zpow_pos (by norm_num) _).ne', Real.log_zpow, Int.cast_sub, Int.cast_natCast, Int.cast_ofNat]
  have hi : (i : ℝ) = 2 ^ 23 * (((i / 2 ^ 23 : Nat) : ℝ) + f) := by
    have h : i = 2 ^ 23 * (i / 2 ^ 23) + i % 2 ^ 23 := (Nat.div_add_mod _ _).symm
    have h' : (i : ℝ) = 2 ^ 23 * ((i / 2 ^ 23 : Nat) : ℝ) + ((i % 2 ^ 23 : Nat) : ℝ) := by exact_mod_cast h
    rw [hf, h']
    generalize ((i / 2 ^ 23 : Nat) : ℝ) = x
    generalize ((i % 2 ^ 23 : Nat) : ℝ) = y
    field_simp
  have hx1 : ((i / 2 ^ 23 : Nat) : ℝ) + f ≤ 256 := by
    have : i / 2 ^ 23 ≤ 255 := by omega
    have : ((i / 2 ^ 23 : Nat) : ℝ) ≤ 255 := by exact_mod_cast this
    linarith
  have hx0 : 0 ≤ ((i / 2 ^ 23 : Nat) : ℝ) + f := by positivity
  rw [hlog]
  unfold logBits
  rw [hi]
  generalize ((i / 2 ^ 23 : Nat) : ℝ) = x at *
  have hsum : f * Real.log 2 + (x - 127) * Real.log 2 = (x + f) * Real.log 2 - 127 * Real.log 2 := by ring
  have hd1 : (x + f) * (Real.log 2 - 2 ^ 23 * (82629582881927490 / 10 ^ 24)) ≤ 1 / 100000 := by nlinarith
  have hd2 : -(1 / 100000) ≤ (x + f) * (Real.log 2 - 2 ^ 23 * (82629582881927490 / 10 ^ 24)) := by nlinarith
  constructor <;> nlinarith

-- the fast logarithm of one is 0.0397 instead of zero
example : 39 / 1000 < logBits (K := ℚ) (127 * 2 ^ 23) ∧ logBits (K := ℚ) (127 * 2 ^ 23) < 4 / 100 := by
  unfold logBits; norm_num

/-- The share of one sphere, for exponents relative to the largest (`renderer.draw.device.h:293-340`). -/
noncomputable def share (l : List ℝ) (k : ℝ) : ℝ := k / l.sum

/-- Shares of the colour computed with fast exponentials are those of true ones up to 6.5 percent, for any number of spheres. -/
theorem share_error (ps : List ℝ) (hps : ∀ p ∈ ps, -86 ≤ p ∧ p ≤ 0) (p : ℝ) (hp : p ∈ ps) :
    ∃ (vs : List ℝ) (v : ℝ), ps.mapM fasterexp = some vs ∧ fasterexp p = some v ∧
      100 / 1065 * 10 * share (ps.map Real.exp) (Real.exp p) ≤ share vs v ∧ share vs v ≤ 1065 / 1000 * share (ps.map Real.exp) (Real.exp p) := by
  have key : ∀ ps : List ℝ, (∀ p ∈ ps, -86 ≤ p ∧ p ≤ 0) → ∃ vs, ps.mapM fasterexp = some vs ∧ 96 / 100 * (ps.map Real.exp).sum ≤ vs.sum ∧ vs.sum ≤ 1022 / 1000 * (ps.map Real.exp).sum := by
    intro ps
    induction ps with
    | nil => exact fun _ => ⟨[], rfl, by simp, by simp⟩
    | cons q ps ih =>
      intro h
      obtain ⟨vs, h1, h2, h3⟩ := ih (fun p hp => h p (List.mem_cons_of_mem _ hp))
      obtain ⟨v, g1, g2, g3⟩ := exp_error q (h q List.mem_cons_self).1 (h q List.mem_cons_self).2
      refine ⟨v :: vs, ?_, ?_, ?_⟩
      · rw [List.mapM_cons, g1, h1]
        rfl
      · rw [List.map_cons, List.sum_cons, List.sum_cons]
        linarith
      · rw [List.map_cons, List.sum_cons, List.sum_cons]
        linarith
  obtain ⟨vs, h1, h2, h3⟩ := key ps hps
  obtain ⟨v, g1, g2, g3⟩ := exp_error p (hps p hp).1 (hps p hp).2
  have hpos : 0 < (ps.map Real.exp).sum := by
    have hle : Real.exp p ≤ (ps.map Real.exp).sum :=
      List.single_le_sum (by simp only [List.mem_map]; rintro _ ⟨x, -, rfl⟩; exact (Real.exp_pos x).le) _ (List.mem_map_of_mem hp)
    exact lt_of_lt_of_le (Real.exp_pos p) hle
  have he := Real.exp_pos p
  have hvs : 0 < vs.sum := by linarith
  refine ⟨vs, v, h1, g1, ?_, ?_⟩
  · unfold share
    rw [← mul_div_assoc, div_le_div_iff₀ hpos hvs]
    have a1 : 100 / 1065 * 10 * Real.exp p * vs.sum ≤ 100 / 1065 * 10 * Real.exp p * (1022 / 1000 * (ps.map Real.exp).sum) := mul_le_mul_of_nonneg_left h3 (by positivity)
    have a2 : 96 / 100 * Real.exp p * (ps.map Real.exp).sum ≤ v * (ps.map Real.exp).sum := mul_le_mul_of_nonneg_right g2 hpos.le
    nlinarith [mul_pos he hpos]
  · unfold share
    rw [← mul_div_assoc, div_le_div_iff₀ hvs hpos]
    have a1 : v * (ps.map Real.exp).sum ≤ 1022 / 1000 * Real.exp p * (ps.map Real.exp).sum := mul_le_mul_of_nonneg_right g3 hpos.le
    have a2 : 1065 / 1000 * Real.exp p * (96 / 100 * (ps.map Real.exp).sum) ≤ 1065 / 1000 * Real.exp p * vs.sum := mul_le_mul_of_nonneg_left h2 (by positivity)
    nlinarith [mul_pos he hpos]

example : ∃ vs v, [0, -1, -2].mapM fasterexp = some vs ∧ fasterexp (-1) = some v ∧
    100 / 1065 * 10 * share ([0, -1, -2].map Real.exp) (Real.exp (-1)) ≤ share vs v ∧ share vs v ≤ 1065 / 1000 * share ([0, -1, -2].map Real.exp) (Real.exp (-1)) :=
  share_error [0, -1, -2] (by simp; norm_num) (-1) (by simp)

/-! ### The running sum of weights -/

/-- The fast exponential as a function, 0 where it is no number. -/
noncomputable def fexp (p : ℝ) : ℝ := (fasterexp p).getD 0

/-- Drawing one sphere (`renderer.draw.device.h:290-322`): its scaled distance and the rest of its weight are added to the largest distance so far and the sum of weights. -/
noncomputable def draw (f : ℝ → ℝ) (s : ℝ × ℝ) (x : ℝ × ℝ) : ℝ × ℝ :=
  let m := max s.1 x.1
  let coeff := x.2 * f (x.1 - m)
  if s.1 = m then (m, s.2 + coeff) else (m, s.2 * f (s.1 - m) + coeff)

noncomputable def drawAll (f : ℝ → ℝ) (s : ℝ × ℝ) (l : List (ℝ × ℝ)) : ℝ × ℝ := l.foldl (draw f) s

/-- While no sphere is nearer than the nearest so far, the weights are simply added, in any order. -/
theorem draw_behind (f : ℝ → ℝ) (m d : ℝ) (l : List (ℝ × ℝ)) (h : ∀ x ∈ l, x.1 ≤ m) :
    drawAll f (m, d) l = (m, d + (l.map fun x => x.2 * f (x.1 - m)).sum) := by
  induction l generalizing d with
  | nil => simp [drawAll]
  | cons x l ih =>
    have hx : max m x.1 = m := max_eq_left (h x List.mem_cons_self)
    have hstep : drawAll f (m, d) (x :: l) = drawAll f (m, d + x.2 * f (x.1 - m)) l := by
      unfold drawAll
      rw [List.foldl_cons]
      congr 1
      unfold draw
      dsimp only
      rw [hx, if_pos rfl]
    rw [hstep, ih _ (fun y hy => h y (List.mem_cons_of_mem _ hy)), List.map_cons, List.sum_cons, add_assoc]

/-- With the true exponential the sum is the one relative to the largest distance, for any order: what the code relies on. -/
theorem draw_true (m d : ℝ) (l : List (ℝ × ℝ)) :
    drawAll Real.exp (m, d) l = (l.foldl (fun m x => max m x.1) m,
      (d * Real.exp m + (l.map fun x => x.2 * Real.exp x.1).sum) * Real.exp (-(l.foldl (fun m x => max m x.1) m))) := by
  induction l generalizing m d with
  | nil =>
    simp only [drawAll, List.foldl_nil, List.map_nil, List.sum_nil, add_zero, mul_assoc, ← Real.exp_add]
    simp
  | cons x l ih =>
    have hstep : drawAll Real.exp (m, d) (x :: l) = drawAll Real.exp (max m x.1, (d * Real.exp m + x.2 * Real.exp x.1) * Real.exp (-(max m x.1))) l := by
      unfold drawAll
      rw [List.foldl_cons]
      congr 1
      unfold draw
      dsimp only
      split_ifs with hm
      · rw [← hm, add_mul, mul_assoc, mul_assoc, ← Real.exp_add, ← Real.exp_add, add_neg_cancel, Real.exp_zero, mul_one, sub_eq_add_neg]
      · rw [add_mul, mul_assoc, mul_assoc, ← Real.exp_add, ← Real.exp_add, sub_eq_add_neg, sub_eq_add_neg]
    rw [hstep, ih]
    simp only [List.foldl_cons, List.map_cons, List.sum_cons, Prod.mk.injEq, true_and]
    congr 1
    rw [mul_assoc, ← Real.exp_add, neg_add_cancel, Real.exp_zero, mul_one, add_assoc]

/-- With the fast exponential the order matters: of two spheres the farther one gets less weight if it is drawn first. -/
theorem draw_order (m a b wa wb : ℝ) (hm : m < a) (hab : a < b) (hr : b - a ≤ 86) (hw : 0 < wa) :
    (drawAll fexp (m, 0) [(a, wa), (b, wb)]).2 < (drawAll fexp (m, 0) [(b, wb), (a, wa)]).2 ∧
    (drawAll fexp (m, 0) [(a, wa), (b, wb)]).1 = (drawAll fexp (m, 0) [(b, wb), (a, wa)]).1 := by
  obtain ⟨z, hz, -, hz1⟩ := exp_zero
  obtain ⟨v, hv, hv1, -⟩ := exp_error (a - b) (by linarith) (by linarith)
  have hv0 : 0 < v := lt_of_lt_of_le (mul_pos (by norm_num) (Real.exp_pos _)) hv1
  have h0 : fexp 0 = z := by unfold fexp; rw [hz]; rfl
  have h1 : fexp (a - b) = v := by unfold fexp; rw [hv]; rfl
  have e1 : drawAll fexp (m, 0) [(a, wa), (b, wb)] = (b, (0 * fexp (m - a) + wa * z) * v + wb * z) := by
    simp only [drawAll, List.foldl_cons, List.foldl_nil, draw]
    rw [max_eq_right hm.le, if_neg hm.ne]
    dsimp only
    rw [max_eq_right hab.le, if_neg hab.ne, sub_self, sub_self, h0, h1]
  have e2 : drawAll fexp (m, 0) [(b, wb), (a, wa)] = (b, (0 * fexp (m - b) + wb * z) + wa * v) := by
    simp only [drawAll, List.foldl_cons, List.foldl_nil, draw]
    rw [max_eq_right (hm.trans hab).le, if_neg (hm.trans hab).ne]
    dsimp only
    rw [max_eq_left hab.le, if_pos rfl, sub_self, h0, h1]
  rw [e1, e2]
  refine ⟨?_, rfl⟩
  have : wa * z * v < wa * v := by
    have h2 : wa * z < wa := by nlinarith
    nlinarith
  dsimp only
  linarith

example : (drawAll fexp (0, 0) [(1, 1), (2, 1)]).2 < (drawAll fexp (0, 0) [(2, 1), (1, 1)]).2 :=
  (draw_order 0 1 2 1 1 (by norm_num) (by norm_num) (by norm_num) (by norm_num)).1

end P3D.FastMath
