/-
`csrc/rasterize_coarse/bitmask.cuh`: a boolean array of shape (H, W, 32 D) packed into words of 32 bits.

Words are natural numbers of which the bits 0..31 are used. The atomic `atomicOr` makes every operation one step.
-/
import Mathlib.Data.Nat.Bitwise
import Mathlib.Data.List.Basic
import Mathlib.Algebra.BigOperators.Group.List.Basic
import Mathlib.Algebra.Order.BigOperators.Group.List
import Mathlib.Tactic.Ring
import Mathlib.Tactic.Linarith
import Verif.Scatter

set_option linter.unusedSectionVars false

namespace P3D.BitMask

/-- `_get_elem_idx`, `bitmask.cuh:38-40`, with `B = 32`. -/
def elemIdx (W D y x d : Nat) : Nat := y * W * D + x * D + d / 32

/-- `_get_bit_idx`, lines 42-44. -/
def bitIdx (d : Nat) : Nat := d % 32

/-- `set`, lines 47-52. -/
def set (W D : Nat) (data : Nat → Nat) (p : Nat × Nat × Nat) : Nat → Nat :=
  Function.update data (elemIdx W D p.1 p.2.1 p.2.2) (data (elemIdx W D p.1 p.2.1 p.2.2) ||| (1 <<< bitIdx p.2.2))

/-- `get`, lines 63-67. -/
def get (W D : Nat) (data : Nat → Nat) (y x d : Nat) : Bool :=
  decide ((data (elemIdx W D y x d) >>> bitIdx d) &&& 1 ≠ 0)

/-- `__popc`. -/
def popc (w : Nat) : Nat := (List.range 32).countP fun i => w.testBit i

/-- `count`, lines 70-78. -/
def count (W D : Nat) (data : Nat → Nat) (y x : Nat) : Nat :=
  ((List.range D).map fun i => popc (data (y * W * D + x * D + i))).sum

/-- `block_clear` (lines 29-34) followed by the `set` operations of all threads, in some order. -/
def run (W D : Nat) (ops : List (Nat × Nat × Nat)) : Nat → Nat := ops.foldl (set W D) fun _ => 0

/-- The bits of different positions are different. -/
theorem pos_inj {W D y x d y' x' d' : Nat} (hx : x < W) (hd : d < 32 * D) (hx' : x' < W) (hd' : d' < 32 * D)
    (h1 : elemIdx W D y x d = elemIdx W D y' x' d') (h2 : bitIdx d = bitIdx d') : y = y' ∧ x = x' ∧ d = d' := by
  unfold elemIdx at h1
  unfold bitIdx at h2
  have e1 : d / 32 < D := by omega
  have e2 : d' / 32 < D := by omega
  have f : ∀ y x k : Nat, y * W * D + x * D + k = (y * W + x) * D + k := by intros; ring
  rw [f, f] at h1
  have h3 : d / 32 = d' / 32 := by
    have := congrArg (· % D) h1
    simpa [Scatter.mod_decode e1, Scatter.mod_decode e2] using this
  have h4 : y * W + x = y' * W + x' := by
    have := congrArg (· / D) h1
    simpa [Scatter.div_decode e1, Scatter.div_decode e2] using this
  have h5 : x = x' := by
    have := congrArg (· % W) h4
    simpa [Scatter.mod_decode hx, Scatter.mod_decode hx'] using this
  have h6 : y = y' := by
    have := congrArg (· / W) h4
    simpa [Scatter.div_decode hx, Scatter.div_decode hx'] using this
  exact ⟨h6, h5, by omega⟩

theorem get_eq (W D : Nat) (data : Nat → Nat) (y x d : Nat) :
    get W D data y x d = (data (elemIdx W D y x d)).testBit (bitIdx d) := by
  unfold get Nat.testBit
  rw [Nat.and_comm, Bool.eq_iff_iff, decide_eq_true_eq, bne_iff_ne]

/-- The state of a bit after any sequence of `set` operations. -/
theorem run_get {W D : Nat} (ops : List (Nat × Nat × Nat)) (ho : ∀ p ∈ ops, p.2.1 < W ∧ p.2.2 < 32 * D)
    {y x d : Nat} (hx : x < W) (hd : d < 32 * D) : get W D (run W D ops) y x d = decide ((y, x, d) ∈ ops) := by
  rw [get_eq]
  unfold run
  suffices h : ∀ (data : Nat → Nat), (ops.foldl (set W D) data (elemIdx W D y x d)).testBit (bitIdx d)
      = ((data (elemIdx W D y x d)).testBit (bitIdx d) || decide ((y, x, d) ∈ ops)) by
    rw [h]; simp
  induction ops with
  | nil => simp
  | cons p ops ih =>
    intro data
    rw [List.foldl_cons, ih (fun q hq => ho q (by simp [hq]))]
    obtain ⟨y', x', d'⟩ := p
    have hp := ho (y', x', d') (by simp)
    unfold set
    by_cases he : elemIdx W D y x d = elemIdx W D y' x' d'
    · by_cases hb : bitIdx d = bitIdx d'
      · obtain ⟨rfl, rfl, rfl⟩ := pos_inj hx hd hp.1 hp.2 he hb
        simp [Nat.testBit_or, Nat.testBit_shiftLeft]
      · have hne : (y, x, d) ≠ (y', x', d') := by
          intro h
          simp only [Prod.mk.injEq] at h
          exact hb (by rw [h.2.2])
        simp only [he, Function.update_self, Nat.testBit_or, Nat.testBit_shiftLeft, List.mem_cons, hne, false_or]
        have : (decide (bitIdx d ≥ bitIdx d') && Nat.testBit 1 (bitIdx d - bitIdx d')) = false := by
          rw [Bool.and_eq_false_iff]
          by_cases h : bitIdx d ≥ bitIdx d'
          · right
            rw [Bool.eq_false_iff, ne_eq, Nat.testBit_one_eq_true_iff_self_eq_zero]
            omega
          · left; simpa using h
        rw [this, Bool.or_false]
    · have hne : (y, x, d) ≠ (y', x', d') := by
        intro h
        simp only [Prod.mk.injEq] at h
        exact he (by rw [h.1, h.2.1, h.2.2])
      rw [Function.update_of_ne he]
      simp only [List.mem_cons, hne, false_or]

theorem countP_range_mul (a b : Nat) (p : Nat → Bool) :
    (List.range (a * b)).countP p = ((List.range a).map fun i => (List.range b).countP fun j => p (i * b + j)).sum := by
  induction a with
  | zero => simp
  | succ a ih =>
    rw [Nat.add_mul, Nat.one_mul, List.range_add, List.countP_append, ih, List.range_succ, List.map_append, List.sum_append,
      List.countP_map]
    simp [Function.comp_def]

/-- `count` is the number of set bits of the row. -/
theorem count_eq {W D : Nat} (data : Nat → Nat) (y x : Nat) :
    count W D data y x = (List.range (32 * D)).countP fun d => get W D data y x d := by
  rw [Nat.mul_comm, countP_range_mul]
  unfold count popc
  congr 1
  apply List.map_congr_left
  intro i _
  apply List.countP_congr
  intro j hj
  rw [List.mem_range] at hj
  rw [get_eq, elemIdx, bitIdx, Scatter.div_decode hj, Scatter.mod_decode hj]

example : get 2 1 (run 2 1 [(0, 1, 5), (1, 0, 31), (0, 1, 7)]) 0 1 7 = true
    ∧ get 2 1 (run 2 1 [(0, 1, 5), (1, 0, 31), (0, 1, 7)]) 0 0 7 = false
    ∧ count 2 1 (run 2 1 [(0, 1, 5), (1, 0, 31), (0, 1, 7)]) 0 1 = 2 := by decide +kernel

end P3D.BitMask
