/-
Sampling of UV texture maps: `F.grid_sample` as it is called by `TexturesUV.sample_textures`,
`renderer/mesh/textures.py:1190-1272`, and the lemmas on interpolation needed for `join_scene`.

One channel; numbers are an ordered field with floor.  A map is a function of row and column together with its size.
`grid_sample` is PyTorch's and not part of the repository; its documented formula is written out here (modes `bilinear` and
`nearest`, the three padding modes, both values of `align_corners`).
-/
import Mathlib.Algebra.Order.Floor.Ring
import Mathlib.Algebra.Order.Field.Basic
import Mathlib.Algebra.Order.AbsoluteValue.Basic
import Mathlib.Data.Rat.Floor
import Mathlib.Tactic.Ring
import Mathlib.Tactic.FieldSimp
import Mathlib.Tactic.Linarith
import Mathlib.Tactic.Positivity
import Mathlib.Tactic.LinearCombination

set_option linter.unusedSectionVars false

namespace P3D.Uv

variable {K : Type} [Field K] [LinearOrder K] [IsStrictOrderedRing K] [FloorRing K]

inductive Padding | zeros | border | reflection
  deriving DecidableEq

inductive Mode | bilinear | nearest
  deriving DecidableEq

/-- `sampling_mode`, `align_corners`, `padding_mode` of `TexturesUV`. -/
structure Cfg where
  mode : Mode
  align : Bool
  pad : Padding
  deriving DecidableEq

/-- One channel of a map of shape `(H, W, C)`. -/
structure TexMap (K : Type) where
  H : Nat
  W : Nat
  val : Int → Int → K

/-! ### `grid_sample` -/

/-- From `[-1, 1]` to pixel coordinates (`grid_sampler_unnormalize`). -/
def unnorm (align : Bool) (size : Int) (c : K) : K := if align then (c + 1) / 2 * (size - 1) else ((c + 1) * size - 1) / 2

/-- `clip_coordinates`. -/
def clipC (size : Int) (x : K) : K := min ((size : K) - 1) (max x 0)

/-- `reflect_coordinates`. -/
def reflectC (lo2 hi2 : Int) (x : K) : K :=
  if lo2 = hi2 then 0
  else
    let mn : K := (lo2 : K) / 2
    let span : K := ((hi2 : K) - lo2) / 2
    let a := |x - mn|
    let flips := ⌊a / span⌋
    let extra := a - span * flips
    if flips % 2 = 0 then extra + mn else span - extra + mn

/-- `compute_coordinates`. -/
def padCoord (align : Bool) (pad : Padding) (size : Int) (x : K) : K :=
  match pad with
  | .zeros => x
  | .border => clipC size x
  | .reflection => clipC size (if align then reflectC 0 (2 * (size - 1)) x else reflectC (-1) (2 * size - 1) x)

/-- A texel, zero outside the map. -/
def texel (m : TexMap K) (i j : Int) : K := if 0 ≤ i ∧ i < m.H ∧ 0 ≤ j ∧ j < m.W then m.val i j else 0

/-- Bilinear interpolation at row `y`, column `x`: the four neighbours. -/
def bilinear (m : TexMap K) (y x : K) : K :=
  let wx := x - ⌊x⌋
  let wy := y - ⌊y⌋
  texel m ⌊y⌋ ⌊x⌋ * ((1 - wx) * (1 - wy)) + texel m ⌊y⌋ (⌊x⌋ + 1) * (wx * (1 - wy))
    + texel m (⌊y⌋ + 1) ⌊x⌋ * ((1 - wx) * wy) + texel m (⌊y⌋ + 1) (⌊x⌋ + 1) * (wx * wy)

/-- `nearbyint`: ties to even. -/
def roundEven (x : K) : Int :=
  if 2 * (x - ⌊x⌋) < 1 then ⌊x⌋ else if 1 < 2 * (x - ⌊x⌋) then ⌊x⌋ + 1 else if ⌊x⌋ % 2 = 0 then ⌊x⌋ else ⌊x⌋ + 1

/-- `F.grid_sample` at grid point `(gx, gy)`. -/
def gridSample (c : Cfg) (m : TexMap K) (gx gy : K) : K :=
  let x := padCoord c.align c.pad m.W (unnorm c.align m.W gx)
  let y := padCoord c.align c.pad m.H (unnorm c.align m.H gy)
  match c.mode with
  | .bilinear => bilinear m y x
  | .nearest => texel m (roundEven y) (roundEven x)

/-- `torch.lerp`. -/
def lerp (a b w : K) : K := a + w * (b - a)

/-- Sampling of a map at `uv` (textures.py:1252-1269). -/
def sampleUV (c : Cfg) (m : TexMap K) (uv : K × K) : K := gridSample c m (lerp (-1) 1 uv.1) (lerp 1 (-1) uv.2)

/-! ### Interpolation along one axis -/

/-- Linear interpolation of a function on the integers. -/
def lin (g : Int → K) (x : K) : K := (1 - (x - ⌊x⌋)) * g ⌊x⌋ + (x - ⌊x⌋) * g (⌊x⌋ + 1)

theorem bilinear_eq (m : TexMap K) (y x : K) : bilinear m y x = lin (fun i => lin (fun j => texel m i j) x) y := by
  unfold bilinear lin
  ring

theorem lin_congr {g g' : Int → K} {lo hi : Int} {x : K} (h0 : (lo : K) ≤ x) (h1 : x ≤ hi) (h : ∀ i, lo ≤ i → i ≤ hi → g i = g' i) :
    lin g x = lin g' x := by
  have f0 : lo ≤ ⌊x⌋ := Int.le_floor.mpr h0
  have f1 : ⌊x⌋ ≤ hi := by
    have : ((⌊x⌋ : Int) : K) ≤ (hi : K) := (Int.floor_le x).trans h1
    exact_mod_cast this
  unfold lin
  rw [h _ f0 f1]
  by_cases hx : ⌊x⌋ + 1 ≤ hi
  · rw [h _ (by omega) hx]
  · have he : ⌊x⌋ = hi := by omega
    have : x - ⌊x⌋ = 0 := by
      have := Int.floor_le x
      rw [he] at this ⊢
      linarith
    rw [this]; ring

theorem lin_shift (g : Int → K) (x : K) (n : Int) : lin g (x + n) = lin (fun i => g (i + n)) x := by
  unfold lin
  rw [Int.floor_add_intCast]
  push_cast
  have e : x + n - (⌊x⌋ + n) = x - ⌊x⌋ := by ring
  rw [e]
  have e2 : ⌊x⌋ + n + 1 = ⌊x⌋ + 1 + n := by ring
  rw [e2]

/-- Index clamped to `0 .. size - 1`. -/
def clampI (size i : Int) : Int := max 0 (min (size - 1) i)

theorem lin_int (g : Int → K) (n : Int) : lin g (n : K) = g n := by
  unfold lin
  rw [Int.floor_intCast]; ring

theorem lin_const {g : Int → K} {v : K} {x : K} (h0 : g ⌊x⌋ = v) (h1 : g (⌊x⌋ + 1) = v) : lin g x = v := by
  unfold lin; rw [h0, h1]; ring

/-- Interpolation of a clamped function is interpolation at the clipped position. -/
theorem lin_clamp {size : Int} (hs : 1 ≤ size) (g : Int → K) (x : K) : lin (fun i => g (clampI size i)) x = lin g (clipC size x) := by
  have hs' : (1 : K) ≤ size := by exact_mod_cast hs
  rcases lt_or_ge x 0 with h | h
  · have hf : ⌊x⌋ < 0 := Int.floor_lt.mpr (by exact_mod_cast h)
    have e : clipC size x = ((0 : Int) : K) := by
      unfold clipC
      rw [max_eq_right h.le, min_eq_right (by linarith)]; simp
    rw [e, lin_int]
    apply lin_const <;> congr 1 <;> unfold clampI <;> omega
  · rcases lt_or_ge ((size : K) - 1) x with h' | h'
    · have hf : size - 1 ≤ ⌊x⌋ := Int.le_floor.mpr (by push_cast; exact h'.le)
      have e : clipC size x = ((size - 1 : Int) : K) := by
        unfold clipC
        rw [max_eq_left h, min_eq_left h'.le]; push_cast; rfl
      rw [e, lin_int]
      apply lin_const <;> congr 1 <;> unfold clampI <;> omega
    · have e : clipC size x = x := by
        unfold clipC
        rw [max_eq_left h, min_eq_right h']
      rw [e]
      refine lin_congr (lo := 0) (hi := size - 1) (by simpa using h) (by push_cast; exact h') ?_
      intro i h0 h1
      congr 1
      unfold clampI; omega

/-! ### Padding inside the range -/

theorem clipC_id {size : Int} {x : K} (h0 : 0 ≤ x) (h1 : x ≤ (size : K) - 1) : clipC size x = x := by
  unfold clipC
  rw [max_eq_left h0, min_eq_right h1]

theorem reflectC_id {lo2 hi2 : Int} (hlt : lo2 < hi2) {x : K} (h0 : (lo2 : K) / 2 ≤ x) (h1 : x ≤ (hi2 : K) / 2) :
    reflectC lo2 hi2 x = x := by
  have hspan : (0 : K) < ((hi2 : K) - lo2) / 2 := by
    have : (lo2 : K) < hi2 := by exact_mod_cast hlt
    linarith
  unfold reflectC
  rw [if_neg hlt.ne]
  simp only
  have ha : |x - (lo2 : K) / 2| = x - (lo2 : K) / 2 := abs_of_nonneg (by linarith)
  rw [ha]
  generalize hs : ((hi2 : K) - lo2) / 2 = span at *
  generalize hm : (lo2 : K) / 2 = mn at *
  rcases lt_or_ge (x - mn) span with h | h
  · have : ⌊(x - mn) / span⌋ = 0 := by
      rw [Int.floor_eq_zero_iff]
      exact ⟨div_nonneg (by linarith) hspan.le, (div_lt_one hspan).mpr h⟩
    rw [this, if_pos (by norm_num)]
    push_cast; ring
  · have he : x - mn = span := by
      apply le_antisymm _ h
      rw [← hs, ← hm]; linarith
    have : ⌊(x - mn) / span⌋ = 1 := by
      rw [he, div_self hspan.ne']; simp
    rw [this, if_neg (by norm_num)]
    push_cast; linarith

theorem padCoord_id (align : Bool) (pad : Padding) {size : Int} {x : K} (h0 : 0 ≤ x) (h1 : x ≤ (size : K) - 1) :
    padCoord align pad size x = x := by
  cases pad
  · rfl
  · exact clipC_id h0 h1
  · cases align
    · simp only [padCoord, Bool.false_eq_true, if_false]
      have h2 : (0 : K) ≤ (size : K) - 1 := h0.trans h1
      have hs : 1 ≤ size := by
        have : (1 : K) ≤ size := by linarith
        exact_mod_cast this
      rw [reflectC_id (by omega) (by push_cast; linarith) (by push_cast; linarith)]
      exact clipC_id h0 h1
    · simp only [padCoord, if_true]
      have h2 : (0 : K) ≤ (size : K) - 1 := h0.trans h1
      have hs : 1 ≤ size := by
        have : (1 : K) ≤ size := by linarith
        exact_mod_cast this
      rcases eq_or_lt_of_le hs with hs | hs
      · subst hs
        have : x = 0 := le_antisymm (by simpa using h1) h0
        subst this
        simp [reflectC, clipC]
      · rw [reflectC_id (by omega) (by push_cast; linarith) (by push_cast; linarith)]
        exact clipC_id h0 h1

/-- Without corner alignment positions reach half a texel beyond the centres of the border texels; both padding modes clip. -/
theorem padCoord_clip {pad : Padding} (hp : pad ≠ .zeros) {size : Int} (hs : 1 ≤ size) {x : K} (h0 : -1 / 2 ≤ x)
    (h1 : x ≤ (size : K) - 1 / 2) : padCoord false pad size x = clipC size x := by
  cases pad
  · exact absurd rfl hp
  · rfl
  · simp only [padCoord, Bool.false_eq_true, if_false]
    rw [reflectC_id (by omega) (by push_cast; linarith) (by push_cast; linarith)]

/-! ### Rounding -/

/-- `x` is not half way between two integers. -/
def NoTie (x : K) : Prop := 2 * (x - ⌊x⌋) ≠ 1

theorem roundEven_shift {x : K} (h : NoTie x) (n : Int) : roundEven (x + n) = roundEven x + n := by
  unfold roundEven
  rw [Int.floor_add_intCast]
  push_cast
  have e : x + n - (⌊x⌋ + n) = x - ⌊x⌋ := by ring
  rw [e]
  unfold NoTie at h
  rcases lt_or_gt_of_ne h with h | h
  · rw [if_pos h, if_pos h]
  · rw [if_neg (by linarith), if_pos h, if_neg (by linarith), if_pos h]; ring

theorem roundEven_bounds (x : K) : x - 1 / 2 ≤ roundEven x ∧ (roundEven x : K) ≤ x + 1 / 2 := by
  have h0 := Int.floor_le x
  have h1 := Int.lt_floor_add_one x
  unfold roundEven
  split_ifs with h h' <;> push_cast <;> constructor <;> linarith

theorem roundEven_int (n : Int) : roundEven (n : K) = n := by
  unfold roundEven
  rw [Int.floor_intCast, sub_self, if_pos (by norm_num)]

theorem roundEven_clip {size : Int} (hs : 1 ≤ size) {x : K} : roundEven (clipC size x) = clampI size (roundEven x) := by
  have hs' : (1 : K) ≤ size := by exact_mod_cast hs
  obtain ⟨b0, b1⟩ := roundEven_bounds x
  rcases lt_or_ge x 0 with h | h
  · have e : clipC size x = ((0 : Int) : K) := by
      unfold clipC
      rw [max_eq_right h.le, min_eq_right (by linarith)]; simp
    rw [e, roundEven_int]
    have : roundEven x < 1 := by
      have : (roundEven x : K) < ((1 : Int) : K) := by push_cast; linarith
      exact_mod_cast this
    unfold clampI; omega
  · rcases lt_or_ge ((size : K) - 1) x with h' | h'
    · have e : clipC size x = ((size - 1 : Int) : K) := by
        unfold clipC
        rw [max_eq_left h, min_eq_left h'.le]; push_cast; rfl
      rw [e, roundEven_int]
      have : size - 2 < roundEven x := by
        have : ((size - 2 : Int) : K) < (roundEven x : K) := by push_cast; linarith
        exact_mod_cast this
      unfold clampI; omega
    · rw [clipC_id h h']
      have a0 : -1 < roundEven x := by
        have : ((-1 : Int) : K) < (roundEven x : K) := by push_cast; linarith
        exact_mod_cast this
      have a1 : roundEven x < size := by
        have : (roundEven x : K) < (size : K) := by linarith
        exact_mod_cast this
      unfold clampI; omega

/-! ### The same interpolation in both modes -/

/-- Value along one axis. -/
def along (mode : Mode) (g : Int → K) (x : K) : K :=
  match mode with
  | .bilinear => lin g x
  | .nearest => g (roundEven x)

theorem gridSample_eq (c : Cfg) (m : TexMap K) (gx gy : K) : gridSample c m gx gy =
    along c.mode (fun i => along c.mode (fun j => texel m i j) (padCoord c.align c.pad m.W (unnorm c.align m.W gx)))
      (padCoord c.align c.pad m.H (unnorm c.align m.H gy)) := by
  unfold gridSample along
  cases c.mode
  · exact bilinear_eq _ _ _
  · rfl

theorem along_congr (mode : Mode) {g g' : Int → K} {lo hi : Int} {x : K} (h0 : (lo : K) ≤ x) (h1 : x ≤ hi)
    (h : ∀ i, lo ≤ i → i ≤ hi → g i = g' i) : along mode g x = along mode g' x := by
  cases mode
  · exact lin_congr h0 h1 h
  · obtain ⟨b0, b1⟩ := roundEven_bounds x
    apply h
    · have : ((lo - 1 : Int) : K) < (roundEven x : K) := by push_cast; linarith
      have : lo - 1 < roundEven x := by exact_mod_cast this
      omega
    · have : (roundEven x : K) < ((hi + 1 : Int) : K) := by push_cast; linarith
      have : roundEven x < hi + 1 := by exact_mod_cast this
      omega

theorem along_shift {mode : Mode} (g : Int → K) {x : K} (h : mode = .nearest → NoTie x) (n : Int) :
    along mode g (x + n) = along mode (fun i => g (i + n)) x := by
  cases mode
  · exact lin_shift g x n
  · simp only [along]
    rw [roundEven_shift (h rfl)]

theorem along_clamp (mode : Mode) {size : Int} (hs : 1 ≤ size) (g : Int → K) (x : K) :
    along mode (fun i => g (clampI size i)) x = along mode g (clipC size x) := by
  cases mode
  · exact lin_clamp hs g x
  · simp only [along]
    rw [roundEven_clip hs]

end P3D.Uv
