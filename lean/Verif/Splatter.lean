/-
`renderer/splatter_blend.py` and the cache of `SplatterPhongShader` (`renderer/mesh/shader.py:309-376`).

One image of the batch at a time (no operation mixes them).  Real arithmetic.  The screen coordinates of the fragments are
inputs; `transform_points_screen` is C27.  `torch.min` returns the first of several smallest entries (CPU).  At least one
layer (`K ≥ 1`).
-/
import Verif.Vec3
import Mathlib.Algebra.BigOperators.Intervals
import Mathlib.Algebra.Order.BigOperators.Group.Finset
import Mathlib.Analysis.SpecialFunctions.Exp
import Mathlib.Analysis.Complex.ExponentialBounds
import Mathlib.Tactic.Positivity
import Mathlib.Tactic.FieldSimp
import Mathlib.Tactic.NormNum
import Mathlib.Tactic.IntervalCases

set_option linter.unusedSectionVars false

namespace P3D.Splatter

open Finset

/-! ## Model -/

/-- One entry `(h, w, k)` of the inputs: screen coordinates, colour, `background_mask`. -/
structure Frag where
  x : ℝ
  y : ℝ
  z : ℝ
  rgb : V3 ℝ
  bg : Bool

/-- The inputs for one image. -/
structure Img where
  H : Nat
  W : Nat
  K : Nat
  px : Nat → Nat → Nat → Frag

/-- RGB and alpha. -/
abbrev C4 := V3 ℝ × ℝ

/-- An entry after `_prepare_pixels_and_colors`. -/
structure Px where
  x : ℝ
  y : ℝ
  z : ℝ
  c : C4

/-- `_prepare_pixels_and_colors` (`splatter_blend.py:73-123`). -/
def prepare (f : Frag) : Px := if f.bg then ⟨1, 1, 1, (0, 0)⟩ else ⟨f.x, f.y, f.z, (f.rgb, 1)⟩

/-- `offsets[d]` (`splatter_blend.py:64-68`): `itertools.product((-1, 0, 1), repeat=2)`. -/
def offX (d : Nat) : Int := (d / 3 : Nat) - 1
def offY (d : Nat) : Int := (d % 3 : Nat) - 1

noncomputable section

/-- `_get_splat_kernel_normalization` (`splatter_blend.py:126-141`) for a positive `sigma`. -/
def kernelNorm (σ : ℝ) : ℝ :=
  (1 + 0.05) / ∑ d ∈ range 9, Real.exp (-((offX d : ℝ) ^ 2 + (offY d : ℝ) ^ 2) / (2 * σ ^ 2))

/-- `q_to_px_center` (`splatter_blend.py:261-263`), one coordinate. -/
def toCenter (x : ℝ) : ℝ := (⌊x⌋ : ℝ) - x + 0.5

/-- `splat_weights` (`splatter_blend.py:265-272`). -/
def weight (σ : ℝ) (p : Px) (d : Nat) : ℝ :=
  p.c.2 * kernelNorm σ * Real.exp (-((toCenter p.x + offX d) ^ 2 + (toCenter p.y + offY d) ^ 2) / (2 * σ ^ 2))

/-- `_compute_splatting_colors_and_weights` (`splatter_blend.py:227-280`). -/
def splat (σ : ℝ) (p : Px) (d : Nat) : C4 × ℝ := (weight σ p d • p.c, weight σ p d)

/-- `_offset_splats` (`splatter_blend.py:283-342`) with the crop indices `:45-62`: rows and columns of the padded tensor. -/
def shifted (img : Img) (σ : ℝ) (h w k d : Nat) : C4 × ℝ :=
  let r := h + d % 3
  let c := w + d / 3
  if 1 ≤ r ∧ r ≤ img.H ∧ 1 ≤ c ∧ c ≤ img.W then splat σ (prepare (img.px (r - 1) (c - 1) k)) d else 0

/-- `p_depth[k, d, h, w]` (`splatter_blend.py:181-184`): `F.unfold(kernel_size=3, padding=1)`, kernel entries row by row. -/
def pDepth (img : Img) (h w k d : Nat) : ℝ :=
  let r := h + d / 3
  let c := w + d % 3
  if 1 ≤ r ∧ r ≤ img.H ∧ 1 ≤ c ∧ c ≤ img.W then (prepare (img.px (r - 1) (c - 1) k)).z else 0

/-- First index of the smallest of `f 0, …, f n`. -/
def argmin (f : Nat → ℝ) : Nat → Nat
  | 0 => 0
  | n + 1 => if f (n + 1) < f (argmin f n) then n + 1 else argmin f n

/-- `occlusion_offsets` from the depths `P` of the splatting pixel and `Q` of the pixel itself
(`splatter_blend.py:190-221`). -/
def layerOf (K : Nat) (P Q : Nat → ℝ) : Int :=
  let qp := argmin (fun k => |P k - Q 0|) (K - 1)
  let pq := argmin (fun k => |P 0 - Q k|) (K - 1)
  if |P 0 - Q pq| < |P qp - Q 0| then -(pq : Int) else qp

/-- `_compute_occlusion_layers` (`splatter_blend.py:144-224`). -/
def occ (img : Img) (h w d : Nat) : Int :=
  layerOf img.K (fun k => pDepth img h w k d) (fun k => (prepare (img.px h w k)).z)

/-- `_compute_splatted_colors_and_weights` (`splatter_blend.py:345-396`), one of the three columns of the mask; `K` is the
number of layers of `splat_colors_and_weights`. -/
def column (sel : Int → Int → Prop) [DecidableRel sel] (K : Nat) (oc : Nat → Int) (s : Nat → Nat → C4 × ℝ) : C4 × ℝ :=
  ∑ k ∈ range K, ∑ d ∈ range 9, if sel (oc d) k then s k d else 0

/-- `normalized_splatted_colors` (`splatter_blend.py:418-429`). -/
def normalised (x : C4 × ℝ) : C4 := (1 / max x.2 1) • x.1

/-- One step of the loop `splatter_blend.py:436-445`. -/
def over (top bottom : C4) : C4 := top + (1 - top.2) • bottom

/-- `_normalize_and_compose_all_layers` after the three sums: the background colour, then the columns -1, -2, -3. -/
def composeAll (bgc : V3 ℝ) (K : Nat) (oc : Nat → Int) (s : Nat → Nat → C4 × ℝ) : C4 :=
  over (normalised (column (fun a k => k < a) K oc s))
    (over (normalised (column (fun a k => a = k) K oc s))
      (over (normalised (column (fun a k => a < k) K oc s)) (bgc, 0)))

/-- `SplatterBlender.forward` (`splatter_blend.py:474-567`) at pixel `(h, w)`; `none`: `ValueError`. -/
def blend (img : Img) (σ : ℝ) (bgc : V3 ℝ) (h w : Nat) : Option C4 :=
  if σ ≤ 0 then none else some (composeAll bgc img.K (occ img h w) (shifted img σ h w))

/-- Shapes `(N, H, W, K)`. -/
abbrev Shape := Nat × Nat × Nat × Nat

/-- `forward` with the constants of shape `a` for inputs of shape `b` (both in `shader.py:350-365`, where the blender is made
once): the number of layers that are splatted, or an exception of `gather` or `view`. -/
def cached (a b : Shape) : Option Nat :=
  if a.1 ≤ b.1 ∧ a.2.1 ≤ b.2.1 ∧ a.2.2.1 ≤ b.2.2.1 ∧ a.2.2.2 ≤ b.2.2.2 then
    if a.1 * a.2.1 * a.2.2.1 = b.1 * b.2.1 * b.2.2.1 then some a.2.2.2 else none
  else none

/-! ## Specification -/

/-- `exp(-1 / (2 σ²))`. -/
def base (σ : ℝ) : ℝ := Real.exp (-1 / (2 * σ ^ 2))

/-- The Gaussian kernel of the 3 by 3 neighbourhood, with sum 1.05. -/
def gauss (σ : ℝ) (dh dw : Int) : ℝ := 1.05 * base σ ^ (dh.natAbs ^ 2 + dw.natAbs ^ 2) / (1 + 2 * base σ) ^ 2

/-- Pixel `(r, c)` lies in the image. -/
def Inside (img : Img) (r c : Int) : Prop := 0 ≤ r ∧ r < img.H ∧ 0 ≤ c ∧ c < img.W

instance (img : Img) (r c : Int) : Decidable (Inside img r c) := by unfold Inside; infer_instance

/-- Depths of the layers of a pixel; background is at depth one, everything outside the image at zero. -/
def depth (img : Img) (r c : Int) (k : Nat) : ℝ :=
  if Inside img r c then (if (img.px r.toNat c.toNat k).bg then 1 else (img.px r.toNat c.toNat k).z) else 0

/-- What the fragment `k` of pixel `(r, c)` adds with weight `g`. -/
def share (img : Img) (r c : Int) (k : Nat) (g : ℝ) : C4 × ℝ :=
  if Inside img r c ∧ (img.px r.toNat c.toNat k).bg = false then (g • ((img.px r.toNat c.toNat k).rgb, 1), g) else 0

/-- The fragments are at the centres of their pixels, in screen coordinates without flip (C27: `x = -(w + 1/2)`). -/
def Centred (img : Img) : Prop :=
  ∀ h w k, (img.px h w k).bg = false → (img.px h w k).x = -((w : ℝ) + 1 / 2) ∧ (img.px h w k).y = -((h : ℝ) + 1 / 2)

/-- The three offsets. -/
def dirs : List Int := [-1, 0, 1]

/-- Layer sums over neighbours `(h + dh, w + dw)`, with the surface layer of the neighbour given by `oc dh dw`. -/
def layerSum (sel : Int → Int → Prop) [DecidableRel sel] (img : Img) (σ : ℝ) (oc : Int → Int → Int) (h w : Nat) : C4 × ℝ :=
  ∑ k ∈ range img.K, (dirs.map fun dw => (dirs.map fun dh =>
    if sel (oc dh dw) k then share img (h + dh) (w + dw) k (gauss σ dh dw) else 0).sum).sum

/-- The composition of the three layers over the background. -/
def composed (img : Img) (σ : ℝ) (bgc : V3 ℝ) (oc : Int → Int → Int) (h w : Nat) : C4 :=
  over (normalised (layerSum (fun a k => k < a) img σ oc h w))
    (over (normalised (layerSum (fun a k => a = k) img σ oc h w))
      (over (normalised (layerSum (fun a k => a < k) img σ oc h w)) (bgc, 0)))

/-- Surface layer of neighbour `(dh, dw)` as described: from its own depths. -/
def rightLayer (img : Img) (h w : Nat) (dh dw : Int) : Int := layerOf img.K (depth img (h + dh) (w + dw)) (depth img h w)

/-- Surface layer used by the code: from the depths of the transposed neighbour. -/
def usedLayer (img : Img) (h w : Nat) (dh dw : Int) : Int := layerOf img.K (depth img (h + dw) (w + dh)) (depth img h w)

/-! ## The kernel -/

theorem base_pos (σ : ℝ) : 0 < base σ := Real.exp_pos _

theorem base_lt {σ : ℝ} (h : 0 < σ) : base σ < 1 := by
  unfold base
  rw [Real.exp_lt_one_iff]
  have : 0 < 2 * σ ^ 2 := by positivity
  exact div_neg_of_neg_of_pos (by norm_num) this

theorem exp_base (σ : ℝ) (n : Nat) : Real.exp (-(n : ℝ) / (2 * σ ^ 2)) = base σ ^ n := by
  unfold base
  rw [← Real.exp_nat_mul]
  congr 1
  ring

theorem exp_off (σ : ℝ) (a b : Int) :
    Real.exp (-((a : ℝ) ^ 2 + (b : ℝ) ^ 2) / (2 * σ ^ 2)) = base σ ^ (a.natAbs ^ 2 + b.natAbs ^ 2) := by
  rw [← exp_base]
  congr 3
  push_cast
  rw [Nat.cast_natAbs, Nat.cast_natAbs]
  push_cast
  rw [sq_abs, sq_abs]

theorem kernelNorm_eq (σ : ℝ) : kernelNorm σ = 1.05 / (1 + 2 * base σ) ^ 2 := by
  unfold kernelNorm
  simp only [exp_off]
  congr 1
  · norm_num
  · simp [Finset.sum_range_succ, offX, offY]
    ring

/-- The kernel has sum 1.05. -/
theorem gauss_sum (σ : ℝ) : (dirs.map fun dw => (dirs.map fun dh => gauss σ dh dw).sum).sum = 1.05 := by
  have := base_pos σ
  simp [dirs, gauss]
  field_simp
  ring

theorem gauss_pos (σ : ℝ) (a b : Int) : 0 < gauss σ a b := by
  have := base_pos σ
  unfold gauss; positivity

/-- **C78.** A fragment of pixel `(h + dh, w + dw)` at screen position `(x, y)` (without flip) inside its pixel adds to pixel
`(h, w)` with the Gaussian of its distance to the centre of `(h, w)`. -/
theorem weight_distance (σ : ℝ) (p : Px) (h w : Nat) (d : Nat)
    (hx : ⌊p.x⌋ = -((w : Int) + offX d) - 1) (hy : ⌊p.y⌋ = -((h : Int) + offY d) - 1) :
    weight σ p d = p.c.2 * kernelNorm σ *
      Real.exp (-((-((w : ℝ) + 1 / 2) - p.x) ^ 2 + (-((h : ℝ) + 1 / 2) - p.y) ^ 2) / (2 * σ ^ 2)) := by
  unfold weight toCenter
  rw [hx, hy]
  congr 4
  push_cast
  ring

theorem toCenter_half (n : Nat) : toCenter (-((n : ℝ) + 1 / 2)) = 0 := by
  have : ⌊(-((n : ℝ) + 1 / 2))⌋ = -(n : Int) - 1 := by
    rw [Int.floor_eq_iff]; push_cast; constructor <;> linarith
  unfold toCenter
  rw [this]; push_cast; ring

/-! ## The formula -/

theorem depth_eq (img : Img) (h w k : Nat) (hh : h < img.H) (hw : w < img.W) :
    (prepare (img.px h w k)).z = depth img h w k := by
  unfold depth
  rw [if_pos (by unfold Inside; omega)]
  simp only [Int.toNat_natCast, prepare]
  cases (img.px h w k).bg <;> rfl

theorem pDepth_eq (img : Img) (h w k d : Nat) :
    pDepth img h w k d = depth img ((h : Int) + offX d) ((w : Int) + offY d) k := by
  unfold pDepth depth
  have e : (1 ≤ h + d / 3 ∧ h + d / 3 ≤ img.H ∧ 1 ≤ w + d % 3 ∧ w + d % 3 ≤ img.W) ↔
      Inside img ((h : Int) + offX d) ((w : Int) + offY d) := by
    unfold Inside offX offY; omega
  dsimp only
  by_cases hI : Inside img ((h : Int) + offX d) ((w : Int) + offY d)
  · rw [if_pos (e.mpr hI), if_pos hI]
    have e1 : ((h : Int) + offX d).toNat = h + d / 3 - 1 := by unfold offX; omega
    have e2 : ((w : Int) + offY d).toNat = w + d % 3 - 1 := by unfold offY; omega
    rw [e1, e2]
    unfold prepare
    split <;> rfl
  · rw [if_neg (fun h => hI (e.mp h)), if_neg hI]

theorem occ_eq (img : Img) (h w d : Nat) (hh : h < img.H) (hw : w < img.W) :
    occ img h w d = usedLayer img h w (offY d) (offX d) := by
  unfold occ usedLayer
  simp only [pDepth_eq, depth_eq img h w _ hh hw]

theorem shifted_eq (img : Img) (hc : Centred img) (σ : ℝ) (h w k d : Nat) :
    shifted img σ h w k d = share img ((h : Int) + offY d) ((w : Int) + offX d) k (gauss σ (offY d) (offX d)) := by
  unfold shifted share
  have e : (1 ≤ h + d % 3 ∧ h + d % 3 ≤ img.H ∧ 1 ≤ w + d / 3 ∧ w + d / 3 ≤ img.W) ↔
      Inside img ((h : Int) + offY d) ((w : Int) + offX d) := by
    unfold Inside offX offY; omega
  dsimp only
  by_cases hI : Inside img ((h : Int) + offY d) ((w : Int) + offX d)
  · rw [if_pos (e.mpr hI)]
    have e1 : ((h : Int) + offY d).toNat = h + d % 3 - 1 := by unfold offY; omega
    have e2 : ((w : Int) + offX d).toNat = w + d / 3 - 1 := by unfold offX; omega
    rw [e1, e2]
    cases hb : (img.px (h + d % 3 - 1) (w + d / 3 - 1) k).bg
    · rw [if_pos ⟨hI, rfl⟩]
      obtain ⟨hx, hy⟩ := hc _ _ _ hb
      have hwt : weight σ (prepare (img.px (h + d % 3 - 1) (w + d / 3 - 1) k)) d = gauss σ (offY d) (offX d) := by
        unfold weight prepare
        rw [hb]
        simp only [Bool.false_eq_true, if_false]
        rw [hx, hy, toCenter_half, toCenter_half, zero_add, zero_add, exp_off, kernelNorm_eq, gauss, one_mul,
          add_comm ((offX d).natAbs ^ 2)]
        ring
      unfold splat
      rw [hwt]
      unfold prepare
      rw [hb]
      rfl
    · rw [if_neg (by simp)]
      unfold splat weight prepare
      rw [hb]
      simp
  · rw [if_neg (fun h => hI (e.mp h)), if_neg (fun h => hI h.1)]

theorem column_eq (sel : Int → Int → Prop) [DecidableRel sel] (img : Img) (hc : Centred img) (σ : ℝ) (h w : Nat)
    (hh : h < img.H) (hw : w < img.W) :
    column sel img.K (occ img h w) (shifted img σ h w) = layerSum sel img σ (usedLayer img h w) h w := by
  unfold column layerSum
  apply Finset.sum_congr rfl
  intro k _
  simp only [occ_eq img h w _ hh hw, shifted_eq img hc]
  simp only [Finset.sum_range_succ, Finset.sum_range_zero, offX, offY, dirs, List.map_cons, List.map_nil, List.sum_cons,
    List.sum_nil]
  norm_num
  abel

/-- **C78.** The blended colour: three layers of Gaussian sums over the neighbours, normalised by their weight if it exceeds
one and composed over the background.  Which layers of the neighbour `(h + dh, w + dw)` are in front is decided with the
depths of the pixel `(h + dw, w + dh)`. -/
theorem blend_eq (img : Img) (hc : Centred img) {σ : ℝ} (hσ : 0 < σ) (bgc : V3 ℝ) (h w : Nat) (hh : h < img.H) (hw : w < img.W) :
    blend img σ bgc h w = some (composed img σ bgc (usedLayer img h w) h w) := by
  unfold blend composeAll composed
  rw [if_neg (by linarith), column_eq _ img hc σ h w hh hw, column_eq _ img hc σ h w hh hw, column_eq _ img hc σ h w hh hw]

theorem blend_sigma (img : Img) {σ : ℝ} (hσ : σ ≤ 0) (bgc : V3 ℝ) (h w : Nat) : blend img σ bgc h w = none := by
  unfold blend; rw [if_pos hσ]

theorem argmin_spec (f : Nat → ℝ) (n : Nat) :
    argmin f n ≤ n ∧ (∀ i ≤ n, f (argmin f n) ≤ f i) ∧ ∀ i < argmin f n, f (argmin f n) < f i := by
  induction n with
  | zero => simp [argmin]
  | succ n ih =>
    obtain ⟨h1, h2, h3⟩ := ih
    unfold argmin
    split
    · rename_i hlt
      refine ⟨le_refl _, ?_, ?_⟩
      · intro i hi
        rcases Nat.lt_or_ge i (n + 1) with h | h
        · exact le_trans hlt.le (h2 i (by omega))
        · rw [Nat.le_antisymm hi h]
      · intro i hi
        exact lt_of_lt_of_le hlt (h2 i (by omega))
    · rename_i hge
      rw [not_lt] at hge
      refine ⟨by omega, ?_, h3⟩
      intro i hi
      rcases Nat.lt_or_ge i (n + 1) with h | h
      · exact h2 i (by omega)
      · rw [Nat.le_antisymm hi h]; exact hge

/-- **C78.** The decision for the depths `P` of a neighbour and `Q` of the pixel: a positive `j` if layer `j` of the neighbour
is closest to the surface of the pixel, `-j` if its first layer is closer to layer `j` of the pixel. -/
theorem layerOf_spec (K : Nat) (hK : 0 < K) (P Q : Nat → ℝ) :
    (∃ j < K, layerOf K P Q = j ∧ (∀ i < K, |P j - Q 0| ≤ |P i - Q 0|) ∧ ∀ i < K, |P j - Q 0| ≤ |P 0 - Q i|) ∨
    ∃ j < K, layerOf K P Q = -(j : Int) ∧ (∀ i < K, |P 0 - Q j| ≤ |P 0 - Q i|) ∧ ∀ i < K, |P 0 - Q j| < |P i - Q 0| := by
  obtain ⟨a1, a2, -⟩ := argmin_spec (fun k => |P k - Q 0|) (K - 1)
  obtain ⟨b1, b2, -⟩ := argmin_spec (fun k => |P 0 - Q k|) (K - 1)
  unfold layerOf
  dsimp only
  split
  · rename_i h
    refine Or.inr ⟨_, by omega, rfl, fun i hi => b2 i (by omega), fun i hi => lt_of_lt_of_le h (a2 i (by omega))⟩
  · rename_i h
    rw [not_lt] at h
    refine Or.inl ⟨_, by omega, rfl, fun i hi => a2 i (by omega), fun i hi => le_trans h (b2 i (by omega))⟩

theorem layerOf_one (P Q : Nat → ℝ) : layerOf 1 P Q = 0 := by
  simp [layerOf, argmin]

/-- **C78.** With one layer the decision does not matter and the result is as described. -/
theorem blend_single (img : Img) (hc : Centred img) (hK : img.K = 1) {σ : ℝ} (hσ : 0 < σ) (bgc : V3 ℝ) (h w : Nat)
    (hh : h < img.H) (hw : w < img.W) : blend img σ bgc h w = some (composed img σ bgc (rightLayer img h w) h w) := by
  rw [blend_eq img hc hσ bgc h w hh hw]
  have : usedLayer img h w = rightLayer img h w := by
    funext a b
    unfold usedLayer rightLayer
    rw [hK, layerOf_one, layerOf_one]
  rw [this]

/-! ## Ranges -/

/-- Premultiplied colours with alpha at most the weight and all channels between 0 and alpha. -/
structure Pre (x : C4 × ℝ) : Prop where
  a : x.1.2 = x.2
  w : 0 ≤ x.2
  r : 0 ≤ x.1.1.x ∧ x.1.1.x ≤ x.2
  g : 0 ≤ x.1.1.y ∧ x.1.1.y ≤ x.2
  b : 0 ≤ x.1.1.z ∧ x.1.1.z ≤ x.2

theorem Pre.zero : Pre 0 := by constructor <;> simp

theorem Pre.add {x y : C4 × ℝ} (hx : Pre x) (hy : Pre y) : Pre (x + y) := by
  constructor
  · simp [hx.a, hy.a]
  · simpa using add_nonneg hx.w hy.w
  · have := hx.r; have := hy.r; simp; constructor <;> linarith
  · have := hx.g; have := hy.g; simp; constructor <;> linarith
  · have := hx.b; have := hy.b; simp; constructor <;> linarith

theorem Pre.sum {ι : Type} (s : Finset ι) (f : ι → C4 × ℝ) (h : ∀ i ∈ s, Pre (f i)) : Pre (∑ i ∈ s, f i) := by
  classical
  induction s using Finset.induction_on with
  | empty => simpa using Pre.zero
  | insert a s ha ih =>
    rw [Finset.sum_insert ha]
    exact (h a (by simp)).add (ih fun i hi => h i (by simp [hi]))

/-- A colour with all channels in `[0, 1]`. -/
def Unit3 (v : V3 ℝ) : Prop := (0 ≤ v.x ∧ v.x ≤ 1) ∧ (0 ≤ v.y ∧ v.y ≤ 1) ∧ 0 ≤ v.z ∧ v.z ≤ 1

theorem kernelNorm_pos (σ : ℝ) : 0 < kernelNorm σ := by
  rw [kernelNorm_eq]; have := base_pos σ; positivity

theorem pre_splat (σ : ℝ) (f : Frag) (hf : f.bg = false → Unit3 f.rgb) (d : Nat) : Pre (splat σ (prepare f) d) := by
  unfold splat
  have hN := kernelNorm_pos σ
  cases hb : f.bg
  · have h := hf hb
    have hw : 0 ≤ weight σ (prepare f) d := by
      unfold weight prepare; rw [hb]; simp only [Bool.false_eq_true, if_false]; positivity
    have hc : (prepare f).c = (f.rgb, 1) := by unfold prepare; rw [hb]; rfl
    rw [hc]
    obtain ⟨h1, h2, h3⟩ := h
    constructor
    · simp
    · exact hw
    · simpa using ⟨mul_nonneg hw h1.1, mul_le_of_le_one_right hw h1.2⟩
    · simpa using ⟨mul_nonneg hw h2.1, mul_le_of_le_one_right hw h2.2⟩
    · simpa using ⟨mul_nonneg hw h3.1, mul_le_of_le_one_right hw h3.2⟩
  · have hc : (prepare f).c = (0, 0) := by unfold prepare; rw [hb]; rfl
    have hw : weight σ (prepare f) d = 0 := by unfold weight; rw [hc]; simp
    rw [hc, hw]
    constructor <;> simp

theorem pre_column (sel : Int → Int → Prop) [DecidableRel sel] (K : Nat) (oc : Nat → Int) (s : Nat → Nat → C4 × ℝ)
    (h : ∀ k d, Pre (s k d)) : Pre (column sel K oc s) := by
  unfold column
  apply Pre.sum
  intro k _
  apply Pre.sum
  intro d _
  split
  · exact h k d
  · exact Pre.zero

/-- A normalised layer has alpha in `[0, 1]` and channels in `[0, alpha]`. -/
theorem normalised_range {x : C4 × ℝ} (h : Pre x) : (0 ≤ (normalised x).2 ∧ (normalised x).2 ≤ 1) ∧
    (0 ≤ (normalised x).1.x ∧ (normalised x).1.x ≤ (normalised x).2) ∧
    (0 ≤ (normalised x).1.y ∧ (normalised x).1.y ≤ (normalised x).2) ∧
    (0 ≤ (normalised x).1.z ∧ (normalised x).1.z ≤ (normalised x).2) := by
  have hm : 0 < max x.2 1 := lt_of_lt_of_le one_pos (le_max_right _ _)
  have hi : 0 ≤ 1 / max x.2 1 := by positivity
  have h1 : 1 / max x.2 1 * x.2 ≤ 1 := by
    rw [one_div, inv_mul_le_iff₀ hm, mul_one]; exact le_max_left _ _
  unfold normalised
  simp only [Prod.smul_snd, Prod.smul_fst, V3.smul_x, V3.smul_y, V3.smul_z, smul_eq_mul, h.a]
  refine ⟨⟨mul_nonneg hi h.w, h1⟩, ⟨mul_nonneg hi h.r.1, mul_le_mul_of_nonneg_left h.r.2 hi⟩,
    ⟨mul_nonneg hi h.g.1, mul_le_mul_of_nonneg_left h.g.2 hi⟩, ⟨mul_nonneg hi h.b.1, mul_le_mul_of_nonneg_left h.b.2 hi⟩⟩

theorem over_range {x : C4 × ℝ} (h : Pre x) {y : C4} (hy : Unit3 y.1 ∧ 0 ≤ y.2 ∧ y.2 ≤ 1) :
    Unit3 (over (normalised x) y).1 ∧ 0 ≤ (over (normalised x) y).2 ∧ (over (normalised x) y).2 ≤ 1 := by
  obtain ⟨⟨a0, a1⟩, r, g, b⟩ := normalised_range h
  obtain ⟨⟨yr, yg, yb⟩, y0, y1⟩ := hy
  unfold over Unit3
  simp only [Prod.fst_add, Prod.snd_add, Prod.smul_fst, Prod.smul_snd, V3.add_x, V3.add_y, V3.add_z, V3.smul_x, V3.smul_y,
    V3.smul_z, smul_eq_mul]
  generalize (normalised x).2 = α at *
  have hα : 0 ≤ 1 - α := by linarith
  have key : ∀ c t : ℝ, (0 ≤ c ∧ c ≤ α) → (0 ≤ t ∧ t ≤ 1) → 0 ≤ c + (1 - α) * t ∧ c + (1 - α) * t ≤ 1 := by
    intro c t hc ht
    have := mul_nonneg hα ht.1
    have := mul_le_of_le_one_right hα ht.2
    constructor <;> linarith
  exact ⟨⟨key _ _ r yr, key _ _ g yg, key _ _ b yb⟩, key _ _ ⟨a0, le_refl _⟩ ⟨y0, y1⟩⟩

/-- **C78.** If the colours of the fragments and of the background are in `[0, 1]`, so are all channels of the result and its
alpha, wherever the fragments are. -/
theorem blend_range (img : Img) {σ : ℝ} (hσ : 0 < σ) (bgc : V3 ℝ) (hb : Unit3 bgc)
    (hf : ∀ h w k, (img.px h w k).bg = false → Unit3 (img.px h w k).rgb) (h w : Nat) :
    ∃ c, blend img σ bgc h w = some c ∧ Unit3 c.1 ∧ 0 ≤ c.2 ∧ c.2 ≤ 1 := by
  have hs : ∀ k d, Pre (shifted img σ h w k d) := by
    intro k d
    unfold shifted
    dsimp only
    split
    · exact pre_splat σ _ (hf _ _ _) d
    · exact Pre.zero
  refine ⟨_, by unfold blend; rw [if_neg (by linarith)], ?_⟩
  unfold composeAll
  apply over_range (pre_column _ _ _ _ hs)
  apply over_range (pre_column _ _ _ _ hs)
  apply over_range (pre_column _ _ _ _ hs)
  exact ⟨hb, le_refl _, zero_le_one⟩

/-! ## Background -/

theorem over_zero (c : C4) : over (normalised 0) c = c := by
  unfold over normalised
  simp

theorem share_bg {img : Img} {r c : Int} {k : Nat} {g : ℝ} (h : Inside img r c → (img.px r.toNat c.toNat k).bg = true) :
    share img r c k g = 0 := by
  unfold share
  rw [if_neg]
  rintro ⟨h1, h2⟩
  rw [h h1] at h2
  cases h2

/-- **C78.** A pixel with no fragment in its 3 by 3 neighbourhood has the background colour and alpha zero. -/
theorem blend_background (img : Img) (hc : Centred img) {σ : ℝ} (hσ : 0 < σ) (bgc : V3 ℝ) (h w : Nat) (hh : h < img.H)
    (hw : w < img.W) (hb : ∀ dh ∈ dirs, ∀ dw ∈ dirs, ∀ k < img.K, Inside img (h + dh) (w + dw) →
      (img.px ((h : Int) + dh).toNat ((w : Int) + dw).toNat k).bg = true) : blend img σ bgc h w = some (bgc, 0) := by
  have hz : ∀ (sel : Int → Int → Prop) [DecidableRel sel], layerSum sel img σ (usedLayer img h w) h w = 0 := by
    intro sel _
    unfold layerSum
    apply Finset.sum_eq_zero
    intro k hk
    rw [Finset.mem_range] at hk
    apply List.sum_eq_zero
    intro x hx
    obtain ⟨dw, hdw, rfl⟩ := List.mem_map.mp hx
    apply List.sum_eq_zero
    intro y hy
    obtain ⟨dh, hdh, rfl⟩ := List.mem_map.mp hy
    rw [share_bg (hb dh hdh dw hdw k hk)]
    simp
  rw [blend_eq img hc hσ bgc h w hh hw]
  unfold composed
  rw [hz, hz, hz, over_zero, over_zero, over_zero]

/-! ## One layer -/

/-- Sum over the neighbours. -/
def around (f : Int → Int → C4 × ℝ) : C4 × ℝ := (dirs.map fun dw => (dirs.map fun dh => f dh dw).sum).sum

/-- **C78.** With one layer: the sum of the neighbours, normalised if its weight exceeds one, over the background. -/
theorem blend_layer (img : Img) (hc : Centred img) (hK : img.K = 1) {σ : ℝ} (hσ : 0 < σ) (bgc : V3 ℝ) (h w : Nat)
    (hh : h < img.H) (hw : w < img.W) : blend img σ bgc h w =
      some (over (normalised (around fun dh dw => share img (h + dh) (w + dw) 0 (gauss σ dh dw))) (bgc, 0)) := by
  rw [blend_eq img hc hσ bgc h w hh hw]
  have hu : ∀ a b, usedLayer img h w a b = 0 := by
    intro a b; unfold usedLayer; rw [hK, layerOf_one]
  have e1 : layerSum (fun a k => k < a) img σ (usedLayer img h w) h w = 0 := by
    unfold layerSum; simp [hu, hK, dirs]
  have e2 : layerSum (fun a k => a < k) img σ (usedLayer img h w) h w = 0 := by
    unfold layerSum; simp [hu, hK, dirs]
  have e3 : layerSum (fun a k => a = k) img σ (usedLayer img h w) h w
      = around fun dh dw => share img (h + dh) (w + dw) 0 (gauss σ dh dw) := by
    unfold layerSum around; simp [hu, hK]
  unfold composed
  rw [e1, e2, e3, over_zero, over_zero]

/-- All pixels are covered by one fragment of colour `c`. -/
def plain (H W : Nat) (c : V3 ℝ) : Img := ⟨H, W, 1, fun h w _ => ⟨-((w : ℝ) + 1 / 2), -((h : ℝ) + 1 / 2), 0.5, c, false⟩⟩

theorem plain_centred (H W : Nat) (c : V3 ℝ) : Centred (plain H W c) := fun _ _ _ _ => ⟨rfl, rfl⟩

/-- **C78.** A covered image of one colour: inside it stays so, with alpha one. -/
theorem plain_inside (H W : Nat) (c : V3 ℝ) {σ : ℝ} (hσ : 0 < σ) (bgc : V3 ℝ) (h w : Nat) (h1 : 1 ≤ h) (h2 : h + 1 < H)
    (w1 : 1 ≤ w) (w2 : w + 1 < W) : blend (plain H W c) σ bgc h w = some (c, 1) := by
  rw [blend_layer _ (plain_centred H W c) rfl hσ bgc h w (by simp [plain]; omega) (by simp [plain]; omega)]
  have hs : ∀ dh ∈ dirs, ∀ dw ∈ dirs, share (plain H W c) (h + dh) (w + dw) 0 (gauss σ dh dw)
      = gauss σ dh dw • (((c, 1), 1) : C4 × ℝ) := by
    intro dh hdh dw hdw
    unfold share
    have hd : -1 ≤ dh ∧ dh ≤ 1 := by simp [dirs] at hdh; omega
    have hd' : -1 ≤ dw ∧ dw ≤ 1 := by simp [dirs] at hdw; omega
    rw [if_pos ⟨by unfold Inside plain; dsimp only; omega, rfl⟩]
    simp [plain]
  have hsum : (around fun dh dw => share (plain H W c) (h + dh) (w + dw) 0 (gauss σ dh dw)) = (1.05 : ℝ) • (((c, 1), 1) : C4 × ℝ) := by
    rw [← gauss_sum σ]
    unfold around
    have m1 : (-1 : Int) ∈ dirs := by decide
    have m2 : (0 : Int) ∈ dirs := by decide
    have m3 : (1 : Int) ∈ dirs := by decide
    simp only [dirs, List.map_cons, List.map_nil, List.sum_cons, List.sum_nil, add_smul, zero_smul]
    rw [hs _ m1 _ m1, hs _ m1 _ m2, hs _ m1 _ m3, hs _ m2 _ m1, hs _ m2 _ m2, hs _ m2 _ m3, hs _ m3 _ m1, hs _ m3 _ m2, hs _ m3 _ m3]
  rw [hsum]
  unfold normalised over
  have : max ((1.05 : ℝ) • (((c, 1), 1) : C4 × ℝ)).2 1 = 1.05 := by simp; norm_num
  rw [this]
  congr 1
  ext <;> simp <;> norm_num <;> ring

/-- **C78.** ... but at the corner of the image the weights of the neighbours are missing: the alpha is
`1.05 ((1 + s) / (1 + 2 s))²` if that is less than one, and the background shows through. -/
theorem plain_corner (H W : Nat) (c : V3 ℝ) {σ : ℝ} (hσ : 0 < σ) (bgc : V3 ℝ) (hH : 2 ≤ H) (hW : 2 ≤ W)
    (hs : 1.05 * ((1 + base σ) / (1 + 2 * base σ)) ^ 2 ≤ 1) : blend (plain H W c) σ bgc 0 0 =
      some (let α := 1.05 * ((1 + base σ) / (1 + 2 * base σ)) ^ 2; (α • c + (1 - α) • bgc, α)) := by
  rw [blend_layer _ (plain_centred H W c) rfl hσ bgc 0 0 (by simp [plain]; omega) (by simp [plain]; omega)]
  have hin : ∀ dh dw : Int, Inside (plain H W c) ((0 : Nat) + dh) ((0 : Nat) + dw) ↔ 0 ≤ dh ∧ dh < H ∧ 0 ≤ dw ∧ dw < W := by
    intro dh dw; unfold Inside plain; simp
  have hs1 : ∀ dh dw : Int, share (plain H W c) ((0 : Nat) + dh) ((0 : Nat) + dw) 0 (gauss σ dh dw)
      = if 0 ≤ dh ∧ dh < H ∧ 0 ≤ dw ∧ dw < W then gauss σ dh dw • (((c, 1), 1) : C4 × ℝ) else 0 := by
    intro dh dw
    unfold share
    by_cases hI : 0 ≤ dh ∧ dh < H ∧ 0 ≤ dw ∧ dw < W
    · rw [if_pos ⟨(hin dh dw).mpr hI, rfl⟩, if_pos hI]; simp [plain]
    · rw [if_neg (fun h => hI ((hin dh dw).mp h.1)), if_neg hI]
  have hsum : (around fun dh dw => share (plain H W c) ((0 : Nat) + dh) ((0 : Nat) + dw) 0 (gauss σ dh dw))
      = (1.05 * ((1 + base σ) / (1 + 2 * base σ)) ^ 2) • (((c, 1), 1) : C4 × ℝ) := by
    have hH' : (1 : Int) < H := by omega
    have hW' : (1 : Int) < W := by omega
    have hH0 : (0 : Int) < H := by omega
    have hW0 : (0 : Int) < W := by omega
    unfold around
    simp only [hs1, dirs, List.map_cons, List.map_nil, List.sum_cons, List.sum_nil]
    have hH1 : 0 < H := by omega
    have hW1 : 0 < W := by omega
    norm_num [hH', hW', hH0, hW0, hH1, hW1]
    simp only [← add_smul]
    have e : gauss σ 0 0 + gauss σ 1 0 + (gauss σ 0 1 + gauss σ 1 1) = 21 / 20 * ((1 + base σ) / (1 + 2 * base σ)) ^ 2 := by
      have := base_pos σ
      simp only [gauss]
      norm_num
      field_simp
    exact ⟨by rw [e], e⟩
  rw [hsum]
  unfold normalised over
  generalize 1.05 * ((1 + base σ) / (1 + 2 * base σ)) ^ 2 = α at *
  have : max (α • (((c, 1), 1) : C4 × ℝ)).2 1 = 1 := by simpa using hs
  rw [this]
  congr 1
  ext <;> simp

/-- With the usual `sigma = 0.5` the corner of a covered image is not opaque. -/
theorem corner_half : 1.05 * ((1 + base 0.5) / (1 + 2 * base 0.5)) ^ 2 < 1 := by
  have hb : base 0.5 = Real.exp (-2) := by unfold base; norm_num
  have h0 : (1 / 9 : ℝ) < base 0.5 := by
    rw [hb, Real.exp_neg]
    have h1 := Real.exp_one_lt_d9
    have h2 : Real.exp 2 = Real.exp 1 ^ 2 := by rw [← Real.exp_nat_mul]; norm_num
    have hp : 0 < Real.exp 1 := Real.exp_pos 1
    rw [h2, one_div]
    apply inv_strictAnti₀ (by positivity)
    nlinarith
  generalize base 0.5 = s at *
  have : (1 + s) / (1 + 2 * s) ≤ 10 / 11 := by
    rw [div_le_div_iff₀ (by linarith) (by norm_num)]; linarith
  have h3 : 0 ≤ (1 + s) / (1 + 2 * s) := by positivity
  have : ((1 + s) / (1 + 2 * s)) ^ 2 ≤ (10 / 11) ^ 2 := pow_le_pow_left₀ h3 this 2
  norm_num at this ⊢
  linarith

/-! ## The cache of the shader -/

/-- **C78.** A shader that has rendered once raises for every other batch or image size, and for fewer layers; with more
layers it uses those of the first call only. -/
theorem cached_iff (a b : Shape) (ha : 0 < a.1 ∧ 0 < a.2.1 ∧ 0 < a.2.2.1) (k : Nat) :
    cached a b = some k ↔ a.1 = b.1 ∧ a.2.1 = b.2.1 ∧ a.2.2.1 = b.2.2.1 ∧ a.2.2.2 ≤ b.2.2.2 ∧ k = a.2.2.2 := by
  obtain ⟨n, h, w, m⟩ := a
  obtain ⟨n', h', w', m'⟩ := b
  obtain ⟨ha1, ha2, ha3⟩ := ha
  simp only at ha1 ha2 ha3
  unfold cached
  dsimp only
  constructor
  · intro hk
    split at hk
    · rename_i hle
      split at hk
      · rename_i he
        obtain ⟨l1, l2, l3, l4⟩ := hle
        have e1 : n = n' := by
          by_contra hne
          have : n < n' := by omega
          have : n * h * w < n' * h' * w' :=
            Nat.mul_lt_mul_of_lt_of_le (Nat.mul_lt_mul_of_lt_of_le this l2 (by omega)) l3 (by omega)
          omega
        subst e1
        have e2 : h = h' := by
          by_contra hne
          have : h < h' := by omega
          have : n * h * w < n * h' * w' :=
            Nat.mul_lt_mul_of_lt_of_le (Nat.mul_lt_mul_of_pos_left this ha1) l3 (by omega)
          omega
        subst e2
        have e3 : w = w' := Nat.eq_of_mul_eq_mul_left (Nat.mul_pos ha1 ha2) he
        cases hk
        exact ⟨rfl, rfl, e3, l4, rfl⟩
      · cases hk
    · cases hk
  · rintro ⟨rfl, rfl, rfl, h4, rfl⟩
    rw [if_pos ⟨le_refl _, le_refl _, le_refl _, h4⟩, if_pos rfl]

/-! ## A wrong decision -/

/-- Three by three pixels of a blue surface, and an opaque red fragment in front of the pixel to the right of the centre. -/
def scene : Img := ⟨3, 3, 2, fun h w k =>
  if h = 1 ∧ w = 2 then
    (if k = 0 then ⟨-((w : ℝ) + 1 / 2), -((h : ℝ) + 1 / 2), 0.1, ⟨1, 0, 0⟩, false⟩
      else ⟨-((w : ℝ) + 1 / 2), -((h : ℝ) + 1 / 2), 0.5, ⟨0, 0, 1⟩, false⟩)
  else (if k = 0 then ⟨-((w : ℝ) + 1 / 2), -((h : ℝ) + 1 / 2), 0.5, ⟨0, 0, 1⟩, false⟩ else ⟨0, 0, 0, 0, true⟩)⟩

theorem scene_centred : Centred scene := by
  intro h w k hb
  unfold scene at hb ⊢
  dsimp only at hb ⊢
  split_ifs at hb ⊢ <;> exact ⟨rfl, rfl⟩

theorem argmin_one (f : Nat → ℝ) : argmin f 1 = if f 1 < f 0 then 1 else 0 := rfl

theorem layer_same {P Q : Nat → ℝ} (p0 : P 0 = 0.5) (p1 : P 1 = 1) (q0 : Q 0 = 0.5) (q1 : Q 1 = 1) : layerOf 2 P Q = 0 := by
  unfold layerOf
  simp only [Nat.add_one_sub_one, argmin_one, p0, p1, q0, q1]
  norm_num [p0, q0]

theorem layer_front {P Q : Nat → ℝ} (p0 : P 0 = 0.1) (p1 : P 1 = 0.5) (q0 : Q 0 = 0.5) (q1 : Q 1 = 1) : layerOf 2 P Q = 1 := by
  unfold layerOf
  simp only [Nat.add_one_sub_one, argmin_one, p0, p1, q0, q1]
  norm_num [p0, p1, q0, q1, abs_of_neg]

theorem scene_depth (r c : Nat) (hr : r < 3) (hc : c < 3) :
    depth scene r c 0 = (if r = 1 ∧ c = 2 then 0.1 else 0.5) ∧ depth scene r c 1 = (if r = 1 ∧ c = 2 then 0.5 else 1) := by
  unfold depth
  have hI : Inside scene r c := by unfold Inside scene; dsimp only; omega
  rw [if_pos hI, if_pos hI]
  simp only [Int.toNat_natCast]
  unfold scene
  dsimp only
  by_cases h : r = 1 ∧ c = 2 <;> simp [h]

theorem scene_layer (r c : Nat) (hr : r < 3) (hc : c < 3) :
    layerOf 2 (depth scene r c) (depth scene 1 1) = if r = 1 ∧ c = 2 then 1 else 0 := by
  obtain ⟨a0, a1⟩ := scene_depth r c hr hc
  obtain ⟨b0, b1⟩ := scene_depth 1 1 (by norm_num) (by norm_num)
  by_cases h : r = 1 ∧ c = 2
  · rw [if_pos h] at a0 a1 ⊢
    exact layer_front a0 a1 (by simpa using b0) (by simpa using b1)
  · rw [if_neg h] at a0 a1 ⊢
    exact layer_same a0 a1 (by simpa using b0) (by simpa using b1)

theorem scene_right (dh dw : Int) (hh : -1 ≤ dh ∧ dh ≤ 1) (hw : -1 ≤ dw ∧ dw ≤ 1) :
    rightLayer scene 1 1 dh dw = if dh = 0 ∧ dw = 1 then 1 else 0 := by
  unfold rightLayer
  have := scene_layer (1 + dh).toNat (1 + dw).toNat (by omega) (by omega)
  rw [Int.toNat_of_nonneg (by omega), Int.toNat_of_nonneg (by omega)] at this
  rw [show scene.K = 2 from rfl]
  simp only [Nat.cast_one]
  rw [this]
  congr 1
  rw [eq_iff_iff]
  omega

theorem scene_used (dh dw : Int) (hh : -1 ≤ dh ∧ dh ≤ 1) (hw : -1 ≤ dw ∧ dw ≤ 1) :
    usedLayer scene 1 1 dh dw = if dh = 1 ∧ dw = 0 then 1 else 0 := by
  have := scene_right dw dh hw hh
  unfold rightLayer at this
  unfold usedLayer
  rw [this]
  congr 1
  rw [eq_iff_iff]
  omega

/-- The entries of the scene. -/
theorem scene_share (r c : Nat) (hr : r < 3) (hc : c < 3) (g : ℝ) :
    share scene r c 0 g = (g • ((if r = 1 ∧ c = 2 then ⟨1, 0, 0⟩ else ⟨0, 0, 1⟩, 1) : C4), g) ∧
    share scene r c 1 g = if r = 1 ∧ c = 2 then (g • ((⟨0, 0, 1⟩, 1) : C4), g) else 0 := by
  unfold share
  have hI : Inside scene r c := by unfold Inside scene; dsimp only; omega
  simp only [hI, true_and, Int.toNat_natCast]
  unfold scene
  dsimp only
  by_cases h : r = 1 ∧ c = 2 <;> simp [h]

theorem scene_sum (sel : Int → Int → Prop) [DecidableRel sel] (σ : ℝ) (oc : Int → Int → Int) (a b : Int)
    (ho : ∀ dh dw : Int, -1 ≤ dh ∧ dh ≤ 1 → -1 ≤ dw ∧ dw ≤ 1 → oc dh dw = if dh = a ∧ dw = b then 1 else 0) :
    layerSum sel scene σ oc 1 1 =
      around fun dh dw =>
        (if sel (if dh = a ∧ dw = b then 1 else 0) 0 then
          (gauss σ dh dw • ((if dh = 0 ∧ dw = 1 then ⟨1, 0, 0⟩ else ⟨0, 0, 1⟩, 1) : C4), gauss σ dh dw) else 0)
        + (if sel (if dh = a ∧ dw = b then 1 else 0) 1 then
          (if dh = 0 ∧ dw = 1 then (gauss σ dh dw • ((⟨0, 0, 1⟩, 1) : C4), gauss σ dh dw) else 0) else 0) := by
  have hs : ∀ dh ∈ dirs, ∀ dw ∈ dirs, ∀ g : ℝ,
      share scene ((1 : Nat) + dh) ((1 : Nat) + dw) 0 g
        = (g • ((if dh = 0 ∧ dw = 1 then ⟨1, 0, 0⟩ else ⟨0, 0, 1⟩, 1) : C4), g) ∧
      share scene ((1 : Nat) + dh) ((1 : Nat) + dw) 1 g = if dh = 0 ∧ dw = 1 then (g • ((⟨0, 0, 1⟩, 1) : C4), g) else 0 := by
    intro dh hdh dw hdw g
    have hd : -1 ≤ dh ∧ dh ≤ 1 := by simp [dirs] at hdh; omega
    have hd' : -1 ≤ dw ∧ dw ≤ 1 := by simp [dirs] at hdw; omega
    have := scene_share (1 + dh).toNat (1 + dw).toNat (by omega) (by omega) g
    rw [Int.toNat_of_nonneg (by omega), Int.toNat_of_nonneg (by omega)] at this
    have e : ((1 + dh).toNat = 1 ∧ (1 + dw).toNat = 2) ↔ (dh = 0 ∧ dw = 1) := by omega
    simp only [e] at this
    simpa using this
  unfold layerSum around
  rw [show scene.K = 2 from rfl, Finset.sum_range_succ, Finset.sum_range_succ, Finset.sum_range_zero, zero_add,
    ← List.sum_map_add]
  congr 1
  apply List.map_congr_left
  intro dw hdw
  rw [← List.sum_map_add]
  congr 1
  apply List.map_congr_left
  intro dh hdh
  have hd : -1 ≤ dh ∧ dh ≤ 1 := by simp [dirs] at hdh; omega
  have hd' : -1 ≤ dw ∧ dw ≤ 1 := by simp [dirs] at hdw; omega
  rw [(hs dh hdh dw hdw _).1, (hs dh hdh dw hdw _).2, ho dh dw hd hd']
  rfl

/-- The weight of a direct neighbour. -/
theorem gauss_side (σ : ℝ) : gauss σ 1 0 = gauss σ 0 1 ∧ gauss σ (-1) 0 = gauss σ 0 1 ∧ gauss σ 0 (-1) = gauss σ 0 1 := by
  simp [gauss]

theorem gauss_rest (σ : ℝ) : gauss σ 0 0 + gauss σ (-1) (-1) + gauss σ (-1) 1 + gauss σ 1 (-1) + gauss σ 1 1
    = 1.05 - 4 * gauss σ 0 1 := by
  have := gauss_sum σ
  obtain ⟨a, b, c⟩ := gauss_side σ
  simp only [dirs, List.map_cons, List.map_nil, List.sum_cons, List.sum_nil, a, b, c] at this
  linarith

theorem gauss_lt {σ : ℝ} (hσ : 0 < σ) : gauss σ 0 1 < 1 / 4 := by
  have h0 := base_pos σ
  have h1 := base_lt hσ
  simp only [gauss]
  rw [div_lt_iff₀ (by positivity)]
  norm_num
  nlinarith

/-- **C78.** The scene as described: the red fragment covers `g` of the centre, the blue surface the rest. -/
theorem scene_intended {σ : ℝ} (hσ : 0 < σ) (bgc : V3 ℝ) : composed scene σ bgc (rightLayer scene 1 1) 1 1
    = (⟨gauss σ 0 1, 0, 1 - gauss σ 0 1⟩, 1) := by
  have hg := gauss_lt hσ
  have hp := gauss_pos σ 0 1
  have hr := gauss_rest σ
  obtain ⟨s1, s2, s3⟩ := gauss_side σ
  unfold composed
  rw [scene_sum _ σ _ 0 1 scene_right, scene_sum _ σ _ 0 1 scene_right, scene_sum _ σ _ 0 1 scene_right]
  have e1 : (around fun dh dw =>
        (if (0 : Int) < (if dh = 0 ∧ dw = 1 then 1 else 0) then
          (gauss σ dh dw • ((if dh = 0 ∧ dw = 1 then ⟨1, 0, 0⟩ else ⟨0, 0, 1⟩, 1) : C4), gauss σ dh dw) else 0)
        + (if (1 : Int) < (if dh = 0 ∧ dw = 1 then 1 else 0) then
          (if dh = 0 ∧ dw = 1 then (gauss σ dh dw • ((⟨0, 0, 1⟩, 1) : C4), gauss σ dh dw) else 0) else 0))
      = ((⟨gauss σ 0 1, 0, 0⟩, gauss σ 0 1), gauss σ 0 1) := by
    unfold around
    ext <;> simp [dirs]
  have e2 : (around fun dh dw =>
        (if (if dh = 0 ∧ dw = 1 then (1 : Int) else 0) = 0 then
          (gauss σ dh dw • ((if dh = 0 ∧ dw = 1 then ⟨1, 0, 0⟩ else ⟨0, 0, 1⟩, 1) : C4), gauss σ dh dw) else 0)
        + (if (if dh = 0 ∧ dw = 1 then (1 : Int) else 0) = 1 then
          (if dh = 0 ∧ dw = 1 then (gauss σ dh dw • ((⟨0, 0, 1⟩, 1) : C4), gauss σ dh dw) else 0) else 0))
      = ((⟨0, 0, 1.05⟩, 1.05), 1.05) := by
    unfold around
    ext <;> simp [dirs] <;> linarith
  have e3 : (around fun dh dw =>
        (if (if dh = 0 ∧ dw = 1 then (1 : Int) else 0) < 0 then
          (gauss σ dh dw • ((if dh = 0 ∧ dw = 1 then ⟨1, 0, 0⟩ else ⟨0, 0, 1⟩, 1) : C4), gauss σ dh dw) else 0)
        + (if (if dh = 0 ∧ dw = 1 then (1 : Int) else 0) < 1 then
          (if dh = 0 ∧ dw = 1 then (gauss σ dh dw • ((⟨0, 0, 1⟩, 1) : C4), gauss σ dh dw) else 0) else 0)) = 0 := by
    unfold around
    ext <;> simp [dirs]
  rw [e1, e2, e3, over_zero]
  unfold normalised over
  have m1 : max (gauss σ 0 1) 1 = 1 := by rw [max_eq_right]; linarith
  have m2 : max (1.05 : ℝ) 1 = 1.05 := by norm_num
  simp only [m1, m2]
  ext <;> simp <;> norm_num

/-- **C78.** What the code returns there: part of the blue surface counts as in front of the red fragment, which is dimmed. -/
theorem scene_blend {σ : ℝ} (hσ : 0 < σ) (bgc : V3 ℝ) : ∃ c, blend scene σ bgc 1 1 = some c ∧
    c.1.x = (1 - gauss σ 0 1) * (gauss σ 0 1 / max (1.05 - gauss σ 0 1) 1
      + (1 - (1.05 - gauss σ 0 1) / max (1.05 - gauss σ 0 1) 1) * ((1 - gauss σ 0 1) * bgc.x)) := by
  have hg := gauss_lt hσ
  have hp := gauss_pos σ 0 1
  have hr := gauss_rest σ
  obtain ⟨s1, s2, s3⟩ := gauss_side σ
  refine ⟨_, blend_eq scene scene_centred hσ bgc 1 1 (by simp [scene]) (by simp [scene]), ?_⟩
  unfold composed
  rw [scene_sum _ σ _ 1 0 scene_used, scene_sum _ σ _ 1 0 scene_used, scene_sum _ σ _ 1 0 scene_used]
  have e1 : (around fun dh dw =>
        (if (0 : Int) < (if dh = 1 ∧ dw = 0 then 1 else 0) then
          (gauss σ dh dw • ((if dh = 0 ∧ dw = 1 then ⟨1, 0, 0⟩ else ⟨0, 0, 1⟩, 1) : C4), gauss σ dh dw) else 0)
        + (if (1 : Int) < (if dh = 1 ∧ dw = 0 then 1 else 0) then
          (if dh = 0 ∧ dw = 1 then (gauss σ dh dw • ((⟨0, 0, 1⟩, 1) : C4), gauss σ dh dw) else 0) else 0))
      = ((⟨0, 0, gauss σ 0 1⟩, gauss σ 0 1), gauss σ 0 1) := by
    unfold around
    ext <;> simp [dirs, s1]
  have e2 : (around fun dh dw =>
        (if (if dh = 1 ∧ dw = 0 then (1 : Int) else 0) = 0 then
          (gauss σ dh dw • ((if dh = 0 ∧ dw = 1 then ⟨1, 0, 0⟩ else ⟨0, 0, 1⟩, 1) : C4), gauss σ dh dw) else 0)
        + (if (if dh = 1 ∧ dw = 0 then (1 : Int) else 0) = 1 then
          (if dh = 0 ∧ dw = 1 then (gauss σ dh dw • ((⟨0, 0, 1⟩, 1) : C4), gauss σ dh dw) else 0) else 0))
      = ((⟨gauss σ 0 1, 0, 1.05 - 2 * gauss σ 0 1⟩, 1.05 - gauss σ 0 1), 1.05 - gauss σ 0 1) := by
    unfold around
    ext <;> simp [dirs] <;> linarith
  have e3 : (around fun dh dw =>
        (if (if dh = 1 ∧ dw = 0 then (1 : Int) else 0) < 0 then
          (gauss σ dh dw • ((if dh = 0 ∧ dw = 1 then ⟨1, 0, 0⟩ else ⟨0, 0, 1⟩, 1) : C4), gauss σ dh dw) else 0)
        + (if (if dh = 1 ∧ dw = 0 then (1 : Int) else 0) < 1 then
          (if dh = 0 ∧ dw = 1 then (gauss σ dh dw • ((⟨0, 0, 1⟩, 1) : C4), gauss σ dh dw) else 0) else 0))
      = ((⟨0, 0, gauss σ 0 1⟩, gauss σ 0 1), gauss σ 0 1) := by
    unfold around
    ext <;> simp [dirs]
  rw [e1, e2, e3]
  unfold normalised over
  have m1 : max (gauss σ 0 1) 1 = 1 := by rw [max_eq_right]; linarith
  simp only [m1]
  simp
  ring

/-- **C78.** Over a black background the red of the occluding fragment is strictly less than it should be, for every kernel
width. -/
theorem scene_dimmed {σ : ℝ} (hσ : 0 < σ) : ∃ c, blend scene σ 0 1 1 = some c ∧
    c.1.x < (composed scene σ 0 (rightLayer scene 1 1) 1 1).1.x := by
  obtain ⟨c, hc, hx⟩ := scene_blend hσ 0
  refine ⟨c, hc, ?_⟩
  rw [hx, scene_intended hσ]
  have hg := gauss_lt hσ
  have hp := gauss_pos σ 0 1
  simp only [V3.zero_x, mul_zero, add_zero]
  have : gauss σ 0 1 / max (1.05 - gauss σ 0 1) 1 ≤ gauss σ 0 1 := div_le_self hp.le (le_max_right _ _)
  nlinarith

/-! ## Examples -/

example : ∃ c, blend (plain 2 3 ⟨1, 0, 0.5⟩) 0.5 ⟨1, 1, 1⟩ 0 0 = some c ∧ c.2 < 1 :=
  ⟨_, plain_corner 2 3 _ (by norm_num) _ (by norm_num) (by norm_num) corner_half.le, corner_half⟩

example : blend (plain 5 5 ⟨1, 0, 0.5⟩) 0.5 ⟨1, 1, 1⟩ 2 3 = some (⟨1, 0, 0.5⟩, 1) :=
  plain_inside 5 5 _ (by norm_num) _ 2 3 (by norm_num) (by norm_num) (by norm_num) (by norm_num)

example : cached (1, 64, 64, 3) (1, 64, 64, 5) = some 3 := by decide
example : cached (1, 64, 64, 3) (2, 64, 64, 3) = none := by decide
example : cached (2, 64, 64, 3) (1, 64, 64, 3) = none := by decide

end

end P3D.Splatter
