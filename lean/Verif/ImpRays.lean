/-
Rays of implicitron: `implicitron/models/renderer/ray_sampler.py` (settings, masks, bounds of depth, pixel size, `compute_radii`), `lengths` and `get_padded_xys` of
`ImplicitronRayBundle` (`renderer/base.py`), and `implicitron/tools/camera_utils.py` (`apply_camera_alignment`, `get_min_max_depth_bounds`, `volumetric_camera_overlaps`).

Not modelled: the multinomial sampler itself (Raysampling), Gaussians of cones (Harmonic), random numbers, floats.
-/
import Mathlib.Analysis.SpecialFunctions.Pow.Real
import Mathlib.Tactic.Linarith
import Mathlib.Tactic.LinearCombination
import Mathlib.Tactic.FieldSimp
import Mathlib.Tactic.Ring
import Verif.Mat3

set_option linter.unusedSectionVars false

namespace P3D.ImpRays

open V3

/-! ### The code -/

/-- `ImplicitronRayBundle.lengths` (lines 113-120) of bins. -/
noncomputable def lengths : List ℝ → List ℝ
  | a :: b :: l => (a + 1 / 2 * (b - a)) :: lengths (b :: l)
  | _ => []

inductive Mode | mask | grid
deriving DecidableEq, Repr

inductive Err | value | type
deriving DecidableEq, Repr

/-- The settings (ray_sampler.py:101-113). -/
structure Settings where
  modeTrain : Mode
  modeEval : Mode
  ptsTrain : Nat
  ptsEval : Nat
  perImage : Option Nat
  total : Option Nat
  cone : Bool

/-- What the inner sampler is given: points per ray, rays per image, rays in total. -/
structure Inner where
  pts : Nat
  perImage : Option Nat
  total : Option Nat
deriving DecidableEq

/-- `__post_init__` (lines 115-170): the samplers of training and evaluation. -/
def post (s : Settings) : Except Err (Inner × Inner) :=
  if s.perImage.isSome = true ∧ s.total.isSome = true then .error .value
  else .ok (⟨if s.cone then s.ptsTrain + 1 else s.ptsTrain, if s.modeTrain = .mask then s.perImage else none, s.total⟩,
    ⟨if s.cone then s.ptsEval + 1 else s.ptsEval, if s.modeEval = .mask then s.perImage else none, none⟩)

/-- The end of `forward` (lines 222-258) on one ray: bins and lengths of the bundle from the depths sampled; with `total` the inner bundle is heterogeneous. -/
noncomputable def bundle (s : Settings) (inner : Inner) (depths : List ℝ) : Except Err (Option (List ℝ) × List ℝ) :=
  if s.cone = true ∧ inner.total.isSome = true then .error .type
  else if s.cone = true then
    if depths.length ≤ 1 then .error .value else .ok (some depths, lengths depths)
  else .ok (none, depths)

/-- The mask used (lines 192-203): resized by `nearest`, only when sampling from masks. -/
def sampleMask (mode : Mode) (mask : Option (Nat × Nat × (Nat → Nat → ℝ))) (h w : Nat) : Option (Nat → Nat → ℝ) :=
  match mode, mask with
  | .mask, some (h0, w0, m) => some fun i j => m (i * h0 / h) (j * w0 / w)
  | _, _ => none

/-- `get_padded_xys` (lines 145-178) without the copy: first indices, number of inputs, size of the padding. -/
def paddedIdx (counts : List Nat) : List Nat × Nat × Nat :=
  ((List.range counts.length).map fun i => (counts.take i).sum, counts.sum, counts.foldl max 0)

/-- `pixel_width` (ray_sampler.py:167-170), with the range of NDCMultinomialRaysampler: from -rng + half a pixel to rng - half a pixel; `none`: division by zero. -/
noncomputable def pixelSize (rng : ℝ) (n : Nat) : Option ℝ :=
  if n = 1 then none else some (((rng - rng / n) - (-rng + rng / n)) / ((n : ℝ) - 1))

/-- A perspective camera in NDC: focal lengths, principal point, rotation (rows times matrix) and translation. -/
structure Cam where
  fx : ℝ
  fy : ℝ
  px : ℝ
  py : ℝ
  r : M3 ℝ
  t : V3 ℝ

/-- `unproject_points` with `from_ndc` of NDC `(x, y)` and depth `z`: back to the view and then to the world. -/
noncomputable def unproject (c : Cam) (x y z : ℝ) : V3 ℝ :=
  M3.vecMul ((⟨(x - c.px) * z / c.fx, (y - c.py) * z / c.fy, z⟩ : V3 ℝ) - c.t) c.r.transpose

noncomputable def norm3 (v : V3 ℝ) : ℝ := Real.sqrt (v.x ^ 2 + v.y ^ 2 + v.z ^ 2)

/-- `compute_radii` (ray_sampler.py:333-391) at one pixel. -/
noncomputable def radius (c : Cam) (x y ph pw : ℝ) : ℝ :=
  let p := unproject c x y 1
  (norm3 (unproject c (x + pw) y 1 - p) + norm3 (unproject c x (y + ph) 1 - p)) / Real.sqrt 12

/-- `get_min_max_depth_bounds` (camera_utils.py): for a camera at `e`. -/
noncomputable def bounds (center : V3 ℝ) (extent : ℝ) (e : V3 ℝ) : ℝ × ℝ :=
  let q := e - center
  let dist := max (Real.sqrt (max (q.x ^ 2 + q.y ^ 2 + q.z ^ 2) (1 / 1000))) (extent + 1 / 1000)
  (dist - extent, dist + extent)

/-- `AdaptiveRaySampler._get_min_max_depth_bounds` (ray_sampler.py:291-298): those of the first camera, for the whole batch. -/
noncomputable def adaptive (center : V3 ℝ) (extent : ℝ) (cams : List (V3 ℝ)) : Option (ℝ × ℝ) := cams.head?.map (bounds center extent)

/-- `volumetric_camera_overlaps` (camera_utils.py) on masked rays: `a`, `b` the rays of two cameras to all points of the grid (zero where not seen). -/
noncomputable def inter (a b : List (V3 ℝ)) : ℝ := a.length + ((a.zip b).map fun p => p.1.x * p.2.x + p.1.y * p.2.y + p.1.z * p.2.z).sum

noncomputable def overlap (a b : List (V3 ℝ)) : ℝ := inter a b / max (inter a a + inter b b - inter a b) (1 / 10)

/-- `apply_camera_alignment` (camera_utils.py:49-72): rotation and translation of a camera moved by a rigid transform (rows times matrix) and a scale. -/
def alignCam (r : M3 ℝ) (t : V3 ℝ) (rr : M3 ℝ) (tr : V3 ℝ) (s : ℝ) : M3 ℝ × V3 ℝ :=
  let ra := rr.transpose * r
  (ra, s • (t - M3.vecMul tr ra))

/-! ### Settings and bundles -/

theorem lengths_length (bins : List ℝ) : (lengths bins).length = bins.length - 1 := by
  induction bins with
  | nil => rfl
  | cons a l ih =>
    cases l with
    | nil => rfl
    | cons b l =>
      simp only [lengths, List.length_cons, Nat.add_sub_cancel] at *
      rw [ih]

/-- Length `i` is the middle of bins `i` and `i + 1`. -/
theorem lengths_mid (bins : List ℝ) (i : Nat) (a b : ℝ) (ha : bins[i]? = some a) (hb : bins[i + 1]? = some b) : (lengths bins)[i]? = some ((a + b) / 2) := by
  induction bins generalizing i with
  | nil => simp at ha
  | cons c l ih =>
    cases l with
    | nil => simp at hb
    | cons e l =>
      cases i with
      | zero =>
        simp only [List.getElem?_cons_zero, List.getElem?_cons_succ, Option.some.injEq] at ha hb
        subst ha hb
        simp only [lengths, List.getElem?_cons_zero, Option.some.injEq]
        ring
      | succ i =>
        simp only [List.getElem?_cons_succ] at ha hb
        exact ih i ha hb

/-- Numbers of rays per image and in total exclude each other. -/
theorem post_error (s : Settings) : post s = .error .value ↔ s.perImage ≠ none ∧ s.total ≠ none := by
  unfold post
  simp only [Option.isSome_iff_ne_none]
  by_cases h : s.perImage ≠ none ∧ s.total ≠ none
  · rw [if_pos h]
    exact ⟨fun _ => h, fun _ => rfl⟩
  · rw [if_neg h]
    exact ⟨fun hh => (by cases hh), fun hh => absurd hh h⟩

/-- Bundles have the number of points asked for, with cones (as many intervals) and without; with cones and a number of rays in total training fails and evaluation does not. -/
theorem bundle_points (s : Settings) (tr ev : Inner) (h : post s = .ok (tr, ev)) (depths : List ℝ) :
    (depths.length = tr.pts → 0 < s.ptsTrain → if s.cone = true ∧ s.total ≠ none then bundle s tr depths = .error .type
      else ∃ b l, bundle s tr depths = .ok (b, l) ∧ l.length = s.ptsTrain ∧ (b.isSome = s.cone)) ∧
    (depths.length = ev.pts → 0 < s.ptsEval → ∃ b l, bundle s ev depths = .ok (b, l) ∧ l.length = s.ptsEval ∧ (b.isSome = s.cone)) := by
  unfold post at h
  by_cases h0 : s.perImage.isSome = true ∧ s.total.isSome = true
  · rw [if_pos h0] at h
    cases h
  rw [if_neg h0] at h
  obtain ⟨e1, e2⟩ := Prod.mk.inj (Except.ok.inj h)
  subst e1 e2
  unfold bundle
  cases hc : s.cone with
  | false =>
    simp only [Bool.false_eq_true, if_false, false_and]
    exact ⟨fun hl _ => ⟨none, depths, rfl, hl, rfl⟩, fun hl _ => ⟨none, depths, rfl, hl, rfl⟩⟩
  | true =>
    simp only [if_true, true_and, Option.isSome_none, Bool.false_eq_true, if_false]
    refine ⟨fun hl hp => ?_, fun hl hp => ?_⟩
    · by_cases ht : s.total = none
      · simp only [ht, Option.isSome_none, Bool.false_eq_true, if_false, ne_eq, not_true_eq_false]
        rw [if_neg (by omega)]
        exact ⟨some depths, lengths depths, rfl, by rw [lengths_length]; omega, rfl⟩
      · have : s.total.isSome = true := Option.isSome_iff_ne_none.mpr ht
        rw [if_pos ht, if_pos this]
    · rw [if_neg (by omega)]
      exact ⟨some depths, lengths depths, rfl, by rw [lengths_length]; omega, rfl⟩

/-- Masks are used only in the mode of masks, and entry (i, j) is that of a pixel of the mask at the same relative place. -/
theorem sampleMask_spec (mode : Mode) (h0 w0 : Nat) (m : Nat → Nat → ℝ) (h w : Nat) : sampleMask .grid (some (h0, w0, m)) h w = none ∧ sampleMask mode none h w = none ∧
    ∃ f, sampleMask .mask (some (h0, w0, m)) h w = some f ∧ ∀ i j, i < h → j < w → ∃ a b, f i j = m a b ∧ a < h0 + (if h0 = 0 then 1 else 0) ∧ b < w0 + (if w0 = 0 then 1 else 0) ∧
      a * h ≤ i * h0 ∧ i * h0 < (a + 1) * h ∧ b * w ≤ j * w0 ∧ j * w0 < (b + 1) * w := by
  refine ⟨rfl, by cases mode <;> rfl, _, rfl, ?_⟩
  intro i j hi hj
  have key : ∀ (i h h0 : Nat), i < h → i * h0 / h < h0 + (if h0 = 0 then 1 else 0) ∧ i * h0 / h * h ≤ i * h0 ∧ i * h0 < (i * h0 / h + 1) * h := by
    intro i h h0 hi
    refine ⟨?_, Nat.div_mul_le_self _ _, ?_⟩
    · rw [Nat.div_lt_iff_lt_mul (by omega)]
      split
      · subst_vars
        simp
        omega
      · rw [Nat.add_zero, mul_comm]
        exact Nat.mul_lt_mul_of_pos_left hi (by omega)
    · have := Nat.lt_div_mul_add (a := i * h0) (b := h) (by omega)
      rw [Nat.add_mul, one_mul]
      exact this
  obtain ⟨a1, a2, a3⟩ := key i h h0 hi
  obtain ⟨b1, b2, b3⟩ := key j w w0 hj
  exact ⟨_, _, rfl, a1, b1, a2, a3, b2, b3⟩

/-- Rays of camera `i` start at the sum of the counts before; the third result is the number of rays, not of cameras. -/
theorem padded_spec (counts : List Nat) (i : Nat) (hi : i < counts.length) : (paddedIdx counts).1[i]? = some (counts.take i).sum ∧
    (∀ c ∈ counts, c ≤ (paddedIdx counts).2.2) := by
  refine ⟨by simp [paddedIdx, hi], ?_⟩
  have key : ∀ (l : List Nat) (a : Nat), a ≤ l.foldl max a ∧ ∀ c ∈ l, c ≤ l.foldl max a := by
    intro l
    induction l with
    | nil => simp
    | cons x l ih =>
      intro a
      obtain ⟨h1, h2⟩ := ih (max a x)
      refine ⟨le_trans (le_max_left _ _) h1, ?_⟩
      intro c hc
      rcases List.mem_cons.mp hc with rfl | hc
      · exact le_trans (le_max_right _ _) h1
      · exact h2 c hc
  exact (key counts 0).2

theorem padded_inputs (counts : List Nat) (h : ∀ c ∈ counts, 0 < c) : (paddedIdx counts).2.1 = counts.length ↔ ∀ c ∈ counts, c = 1 := by
  simp only [paddedIdx]
  induction counts with
  | nil => simp
  | cons x l ih =>
    have hx := h x List.mem_cons_self
    have hl := ih fun c hc => h c (List.mem_cons_of_mem _ hc)
    have hge : l.length ≤ l.sum := by
      clear ih hl
      have h' : ∀ c ∈ l, 0 < c := fun c hc => h c (List.mem_cons_of_mem _ hc)
      clear h
      induction l with
      | nil => simp
      | cons y l ih2 =>
        have := h' y List.mem_cons_self
        have := ih2 fun c hc => h' c (List.mem_cons_of_mem _ hc)
        simp
        omega
    rw [List.sum_cons, List.length_cons, List.forall_mem_cons, ← hl]
    omega

/-! ### Radii of pixels -/

/-- The step of the grid is the size of a pixel, for images of more than one row. -/
theorem pixelSize_spec (rng : ℝ) (n : Nat) (hn : 1 < n) : pixelSize rng n = some (2 * rng / n) := by
  have h1 : (n : ℝ) - 1 ≠ 0 := by
    have : (1 : ℝ) < n := by exact_mod_cast hn
    linarith
  have h0 : (n : ℝ) ≠ 0 := by
    have : (0 : ℝ) < n := by exact_mod_cast (by omega : 0 < n)
    exact this.ne'
  unfold pixelSize
  rw [if_neg (by omega)]
  congr 1
  field_simp
  ring

theorem norm3_rot (r : M3 ℝ) (hr : M3.IsRot r) (p q t : V3 ℝ) : norm3 (M3.vecMul (p - t) r.transpose - M3.vecMul (q - t) r.transpose) = norm3 (p - q) := by
  obtain ⟨r00, r11, r22, r01, r02, r12, hdet⟩ := hr.eqs
  obtain ⟨c00, c11, c22, c01, c02, c12, -⟩ := hr.transpose.eqs
  simp only [M3.transpose] at *
  unfold norm3
  congr 1
  simp [M3.vecMul]
  grind

/-- The radius is the same for all pixels, positions and rotations: half the sum of the pixel's sides at depth 1, times 2 / sqrt 12. -/
theorem radius_spec (c : Cam) (hr : M3.IsRot c.r) (x y ph pw : ℝ) (hx : 0 < c.fx) (hy : 0 < c.fy) (hw : 0 ≤ pw) (hh : 0 ≤ ph) :
    radius c x y ph pw = (pw / c.fx + ph / c.fy) / 2 * (2 / Real.sqrt 12) := by
  simp only [radius, unproject]
  rw [norm3_rot _ hr, norm3_rot _ hr]
  have e1 : norm3 ((⟨(x + pw - c.px) * 1 / c.fx, (y - c.py) * 1 / c.fy, 1⟩ : V3 ℝ) - ⟨(x - c.px) * 1 / c.fx, (y - c.py) * 1 / c.fy, 1⟩) = pw / c.fx := by
    unfold norm3
    rw [← Real.sqrt_sq (div_nonneg hw hx.le)]
    congr 1
    simp
    ring
  have e2 : norm3 ((⟨(x - c.px) * 1 / c.fx, (y + ph - c.py) * 1 / c.fy, 1⟩ : V3 ℝ) - ⟨(x - c.px) * 1 / c.fx, (y - c.py) * 1 / c.fy, 1⟩) = ph / c.fy := by
    unfold norm3
    rw [← Real.sqrt_sq (div_nonneg hh hy.le)]
    congr 1
    simp
    ring
  rw [e1, e2]
  ring

/-- For square pixels of side `a` at depth 1 the disk of that radius has, per axis, the variance `a ^ 2 / 12` of the pixel. -/
theorem radius_variance (a : ℝ) : ((a + a) / 2 * (2 / Real.sqrt 12)) ^ 2 / 4 = a ^ 2 / 12 := by
  rw [mul_pow, div_pow 2 (Real.sqrt 12), Real.sq_sqrt (by norm_num)]
  ring

/-- The ray of view coordinates `(a, b)` at depth 1 reaches a given depth at a length that is larger by `sqrt (a ^ 2 + b ^ 2 + 1)`. As directions have length one and the radius
belongs to depth 1, the cone at depth `z` is too wide by this factor. -/
theorem cone_too_wide (a b z r : ℝ) (_hz : 0 < z) : norm3 ⟨a * z, b * z, z⟩ = Real.sqrt (a ^ 2 + b ^ 2 + 1) * z ∧
    r * norm3 ⟨a * z, b * z, z⟩ = Real.sqrt (a ^ 2 + b ^ 2 + 1) * (r * z) ∧ (r * norm3 ⟨a * z, b * z, z⟩ = r * z ↔ r = 0 ∨ (a = 0 ∧ b = 0)) := by
  have e : norm3 ⟨a * z, b * z, z⟩ = Real.sqrt (a ^ 2 + b ^ 2 + 1) * z := by
    unfold norm3
    have : (a * z) ^ 2 + (b * z) ^ 2 + z ^ 2 = (a ^ 2 + b ^ 2 + 1) * z ^ 2 := by ring
    simp only
    rw [this, Real.sqrt_mul (by positivity), Real.sqrt_sq _hz.le]
  refine ⟨e, by rw [e]; ring, ?_⟩
  rw [e, mul_eq_mul_left_iff, mul_eq_right₀ _hz.ne', Real.sqrt_eq_one]
  constructor
  · rintro (h | h)
    · right
      constructor <;> nlinarith [sq_nonneg a, sq_nonneg b]
    · exact Or.inl h
  · rintro (h | ⟨rfl, rfl⟩)
    · exact Or.inr h
    · left
      norm_num

/-! ### Bounds of depth -/

theorem norm3_triangle (p q : V3 ℝ) : norm3 (p + q) ≤ norm3 p + norm3 q := by
  unfold norm3
  have hp : 0 ≤ p.x ^ 2 + p.y ^ 2 + p.z ^ 2 := by positivity
  have hq : 0 ≤ q.x ^ 2 + q.y ^ 2 + q.z ^ 2 := by positivity
  rw [Real.sqrt_le_left (by positivity)]
  have h1 := Real.sq_sqrt hp
  have h2 := Real.sq_sqrt hq
  have hcs : p.x * q.x + p.y * q.y + p.z * q.z ≤ Real.sqrt (p.x ^ 2 + p.y ^ 2 + p.z ^ 2) * Real.sqrt (q.x ^ 2 + q.y ^ 2 + q.z ^ 2) := by
    rw [← Real.sqrt_mul hp]
    apply Real.le_sqrt_of_sq_le
    nlinarith [sq_nonneg (p.x * q.y - p.y * q.x), sq_nonneg (p.x * q.z - p.z * q.x), sq_nonneg (p.y * q.z - p.z * q.y)]
  simp only [V3.add_x, V3.add_y, V3.add_z]
  nlinarith

theorem norm3_neg (p : V3 ℝ) : norm3 (-p) = norm3 p := by
  unfold norm3
  simp

/-- The near plane is at least 1/1000 away, the far plane is two radii behind it. -/
theorem bounds_order (c : V3 ℝ) (ext : ℝ) (e : V3 ℝ) : 1 / 1000 ≤ (bounds c ext e).1 ∧ (bounds c ext e).2 = (bounds c ext e).1 + 2 * ext := by
  simp only [bounds]
  constructor
  · have := le_max_right (Real.sqrt (max ((e - c).x ^ 2 + (e - c).y ^ 2 + (e - c).z ^ 2) (1 / 1000))) (ext + 1 / 1000)
    linarith
  · ring

/-- Every point of the ball of the scene is between the planes of its camera (by distance, directions having length one), except points closer than the near plane to a camera
inside (or within 1/1000 of) the ball, where that plane is at 1/1000. -/
theorem bounds_cover (c : V3 ℝ) (ext : ℝ) (hext : 1 / 20 ≤ ext) (e p : V3 ℝ) (hp : norm3 (p - c) ≤ ext) :
    norm3 (p - e) ≤ (bounds c ext e).2 ∧ (ext + 1 / 1000 ≤ norm3 (e - c) → (bounds c ext e).1 ≤ norm3 (p - e)) ∧
      (norm3 (e - c) ≤ ext + 1 / 1000 → (bounds c ext e).1 = 1 / 1000) := by
  have hpe : p - e = (p - c) + -(e - c) := by ext <;> simp
  have hec : e - c = (p - c) + -(p - e) := by ext <;> simp
  have t1 : norm3 (p - e) ≤ norm3 (p - c) + norm3 (e - c) := by
    have := norm3_triangle (p - c) (-(e - c))
    rwa [norm3_neg, ← hpe] at this
  have t2 : norm3 (e - c) ≤ norm3 (p - c) + norm3 (p - e) := by
    have := norm3_triangle (p - c) (-(p - e))
    rwa [norm3_neg, ← hec] at this
  have hs : norm3 (e - c) ≤ Real.sqrt (max ((e - c).x ^ 2 + (e - c).y ^ 2 + (e - c).z ^ 2) (1 / 1000)) := Real.sqrt_le_sqrt (le_max_left _ _)
  have hsm : Real.sqrt (max ((e - c).x ^ 2 + (e - c).y ^ 2 + (e - c).z ^ 2) (1 / 1000)) ≤ max (norm3 (e - c)) (ext + 1 / 1000) := by
    rcases le_total ((e - c).x ^ 2 + (e - c).y ^ 2 + (e - c).z ^ 2) (1 / 1000) with h | h
    · rw [max_eq_right h]
      apply le_max_of_le_right
      rw [Real.sqrt_le_left (by linarith)]
      nlinarith
    · rw [max_eq_left h]
      exact le_max_left _ _
  simp only [bounds]
  refine ⟨?_, ?_, ?_⟩
  · have := le_max_left (Real.sqrt (max ((e - c).x ^ 2 + (e - c).y ^ 2 + (e - c).z ^ 2) (1 / 1000))) (ext + 1 / 1000)
    linarith
  · intro h
    have : max (Real.sqrt (max ((e - c).x ^ 2 + (e - c).y ^ 2 + (e - c).z ^ 2) (1 / 1000))) (ext + 1 / 1000) ≤ norm3 (e - c) := by
      apply max_le _ h
      rw [max_eq_left h] at hsm
      exact hsm
    linarith
  · intro h
    rw [max_eq_right h] at hsm
    rw [max_eq_right hsm]
    ring

/-- In a batch the planes of the first camera are used for all: with a second camera farther away its rays miss the scene altogether. -/
theorem adaptive_first : ∃ b, adaptive 0 1 [⟨0, 0, 2⟩, ⟨0, 0, 10⟩] = some b ∧ ∀ p : V3 ℝ, norm3 (p - 0) ≤ 1 → b.2 < norm3 (p - ⟨0, 0, 10⟩) := by
  refine ⟨bounds 0 1 ⟨0, 0, 2⟩, rfl, ?_⟩
  intro p hp
  have hb : (bounds 0 1 ⟨0, 0, 2⟩).2 = 3 := by
    simp only [bounds]
    norm_num
    rw [show (4 : ℝ) = 2 ^ 2 by norm_num, Real.sqrt_sq (by norm_num), max_eq_left (by norm_num)]
    norm_num
  rw [hb]
  have h10 : norm3 (⟨0, 0, 10⟩ : V3 ℝ) = 10 := by
    unfold norm3
    norm_num
    rw [show (100 : ℝ) = 10 ^ 2 by norm_num, Real.sqrt_sq (by norm_num)]
  have hsum : (⟨0, 0, 10⟩ : V3 ℝ) = (p - 0) + -(p - ⟨0, 0, 10⟩) := by ext <;> simp
  have := norm3_triangle (p - 0) (-(p - ⟨0, 0, 10⟩))
  rw [norm3_neg, ← hsum, h10] at this
  linarith

/-! ### Overlap of cameras -/

/-- The rays of a camera: of length at most one. -/
def Rays (a : List (V3 ℝ)) : Prop := ∀ v ∈ a, v.x ^ 2 + v.y ^ 2 + v.z ^ 2 ≤ 1

theorem inter_symm (a b : List (V3 ℝ)) (h : a.length = b.length) : inter a b = inter b a := by
  unfold inter
  rw [h]
  congr 1
  induction a generalizing b with
  | nil => cases b <;> simp
  | cons v a ih =>
    cases b with
    | nil => simp
    | cons w b =>
      simp only [List.zip_cons_cons, List.map_cons, List.sum_cons]
      rw [ih b (by simpa using h)]
      ring

theorem inter_bounds (a b : List (V3 ℝ)) (h : a.length = b.length) (ha : Rays a) (hb : Rays b) :
    0 ≤ inter a b ∧ 2 * inter a b ≤ inter a a + inter b b ∧ (a.length : ℝ) ≤ inter a a := by
  unfold inter
  induction a generalizing b with
  | nil =>
    cases b with
    | nil => simp
    | cons => simp at h
  | cons v a ih =>
    cases b with
    | nil => simp at h
    | cons w b =>
      obtain ⟨h1, h2, h3⟩ := ih b (by simpa using h) (fun x hx => ha x (List.mem_cons_of_mem _ hx)) (fun x hx => hb x (List.mem_cons_of_mem _ hx))
      have hv := ha v List.mem_cons_self
      have hw := hb w List.mem_cons_self
      simp only [List.zip_cons_cons, List.map_cons, List.sum_cons, List.length_cons, Nat.cast_add, Nat.cast_one]
      refine ⟨?_, ?_, ?_⟩
      · nlinarith [sq_nonneg (v.x + w.x), sq_nonneg (v.y + w.y), sq_nonneg (v.z + w.z)]
      · nlinarith [sq_nonneg (v.x - w.x), sq_nonneg (v.y - w.y), sq_nonneg (v.z - w.z)]
      · nlinarith [sq_nonneg v.x, sq_nonneg v.y, sq_nonneg v.z]

/-- The matrix is symmetric, between 0 and 1, and 1 on the diagonal. -/
theorem overlap_spec (a b : List (V3 ℝ)) (h : a.length = b.length) (hn : a ≠ []) (ha : Rays a) (hb : Rays b) :
    overlap a b = overlap b a ∧ 0 ≤ overlap a b ∧ overlap a b ≤ 1 ∧ overlap a a = 1 := by
  obtain ⟨h1, h2, h3⟩ := inter_bounds a b h ha hb
  have hl : (1 : ℝ) ≤ a.length := by exact_mod_cast List.length_pos_iff.mpr hn
  have hden : (0 : ℝ) < max (inter a a + inter b b - inter a b) (1 / 10) := lt_of_lt_of_le (by norm_num) (le_max_right _ _)
  refine ⟨?_, div_nonneg h1 hden.le, ?_, ?_⟩
  · unfold overlap
    rw [inter_symm b a h.symm, add_comm (inter b b)]
  · unfold overlap
    rw [div_le_one hden]
    exact le_trans (by linarith) (le_max_left _ _)
  · unfold overlap
    rw [max_eq_left (by linarith)]
    rw [show inter a a + inter a a - inter a a = inter a a by ring, div_self (by linarith)]

/-- Rays of length one, zero where a point is not seen: the number of points seen is added to that of all points. -/
theorem inter_self (a : List (V3 ℝ)) (seen : V3 ℝ → Bool) (ha : ∀ v ∈ a, v.x ^ 2 + v.y ^ 2 + v.z ^ 2 = if seen v then 1 else 0) :
    inter a a = a.length + (a.filter seen).length := by
  unfold inter
  congr 1
  induction a with
  | nil => simp
  | cons v a ih =>
    have hv := ha v List.mem_cons_self
    simp only [List.zip_cons_cons, List.map_cons, List.sum_cons]
    rw [ih fun x hx => ha x (List.mem_cons_of_mem _ hx), List.filter_cons]
    cases hs : seen v
    · rw [hs] at hv
      simp at hv ⊢
      linarith
    · rw [hs] at hv
      simp at hv ⊢
      linarith

/-- Cameras that see no point in common do not have overlap 0, but n / (n + number of points seen by one of them). -/
theorem overlap_disjoint (a b : List (V3 ℝ)) (hn : a ≠ []) (h : a.length = b.length) (seen : V3 ℝ → Bool)
    (ha : ∀ v ∈ a, v.x ^ 2 + v.y ^ 2 + v.z ^ 2 = if seen v then 1 else 0) (hb : ∀ v ∈ b, v.x ^ 2 + v.y ^ 2 + v.z ^ 2 = if seen v then 1 else 0)
    (hab : ∀ p ∈ a.zip b, p.1 = 0 ∨ p.2 = 0) :
    overlap a b = a.length / (a.length + ((a.filter seen).length + (b.filter seen).length)) := by
  have e : inter a b = a.length := by
    unfold inter
    rw [List.sum_eq_zero, add_zero]
    intro x hx
    obtain ⟨p, hp, rfl⟩ := List.mem_map.mp hx
    rcases hab p hp with h0 | h0 <;> rw [h0] <;> simp
  have hl : (1 : ℝ) ≤ a.length := by exact_mod_cast List.length_pos_iff.mpr hn
  unfold overlap
  rw [e, inter_self a seen ha, inter_self b seen hb, ← h]
  have h1 : (0 : ℝ) ≤ (a.filter seen).length := by positivity
  have h2 : (0 : ℝ) ≤ (b.filter seen).length := by positivity
  rw [max_eq_left (by linarith)]
  congr 1
  ring

/-! ### Alignment -/

/-- The moved scene `s (p R + T)` has in the moved camera the old view coordinates times the scale, so the pictures of perspective cameras stay the same. -/
theorem align_view (r : M3 ℝ) (t : V3 ℝ) (rr : M3 ℝ) (tr : V3 ℝ) (s : ℝ) (hr : M3.IsRot rr) (p : V3 ℝ) :
    M3.vecMul (s • (M3.vecMul p rr + tr)) (alignCam r t rr tr s).1 + (alignCam r t rr tr s).2 = s • (M3.vecMul p r + t) := by
  obtain ⟨r00, r11, r22, r01, r02, r12, hdet⟩ := hr.eqs
  obtain ⟨c00, c11, c22, c01, c02, c12, -⟩ := hr.transpose.eqs
  simp only [M3.transpose] at *
  ext <;> simp [alignCam, M3.vecMul, M3.mul_def, M3.transpose] <;> grind

theorem align_picture (r : M3 ℝ) (t : V3 ℝ) (rr : M3 ℝ) (tr : V3 ℝ) (s : ℝ) (hs : s ≠ 0) (hr : M3.IsRot rr) (p v w : V3 ℝ)
    (hv : v = M3.vecMul p r + t) (hw : w = M3.vecMul (s • (M3.vecMul p rr + tr)) (alignCam r t rr tr s).1 + (alignCam r t rr tr s).2) :
    w.x / w.z = v.x / v.z ∧ w.y / w.z = v.y / v.z ∧ w.z = s * v.z := by
  rw [align_view r t rr tr s hr p, ← hv] at hw
  subst hw
  refine ⟨?_, ?_, by simp⟩
  · simp [mul_div_mul_left _ _ hs]
  · simp [mul_div_mul_left _ _ hs]

/-! ### Examples -/

example : lengths [1, 2, 4] = [3 / 2, 3] := by norm_num [lengths]
example : paddedIdx [2, 1, 3] = ([0, 2, 3], 6, 3) := by decide
example : pixelSize 1 4 = some (1 / 2) := by
  rw [pixelSize_spec 1 4 (by norm_num)]
  norm_num
/-- Two cameras that see different points of a grid of two. -/
example : overlap [⟨1, 0, 0⟩, 0] [0, ⟨0, 1, 0⟩] = 2 / (2 + (1 + 1)) := by norm_num [overlap, inter]

end P3D.ImpRays
