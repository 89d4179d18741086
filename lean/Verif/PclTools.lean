/-
Point cloud helpers of implicitron: `render_point_cloud_pytorch3d`, `_transform_points`, `get_rgbd_point_cloud` (`implicitron/tools/point_cloud_utils.py`),
`rasterize_sparse_ray_bundle`, `rasterize_mc_samples` (`rasterize_mc.py`), `cleanup_eval_depth` (`depth_cleanup.py`).

One pixel is the list of its fragments, front to back; compositing is that of Compositing, rays those of Raysampling, sampling of images that of UvSample.  Not modelled:
`F.interpolate` to the size the image already has (the identity), bilinear resizing of colours, 32 bit floats (pixel indices are exact only below 2^24).
-/
import Mathlib.Analysis.Real.Sqrt
import Mathlib.Tactic.Linarith
import Mathlib.Tactic.FieldSimp
import Mathlib.Tactic.Ring
import Mathlib.Tactic.NormNum.Inv
import Verif.CompositingProps
import Verif.Raymarching
import Verif.RasterPoints
import Verif.Raysampling
import Verif.AxisAngleProps
import Verif.UvMaps

set_option linter.unusedSectionVars false

namespace P3D.PclTools

open Compositing

/-! ### Rendering -/

section render

variable {K : Type} [Field K] [LinearOrder K] [IsStrictOrderedRing K]

/-- `_signed_clamp` (point_cloud_utils.py:179-182). -/
def signedClamp (x eps : K) : K :=
  let s := (if 0 < x then 1 else if x < 0 then -1 else 0) + (if x = 0 then 1 else 0)
  s * max |x| eps

/-- `depths` of `render_point_cloud_pytorch3d` (lines 151-156) of one pixel: weights and depths of the fragments. -/
def depth (l : List (K × K)) : K :=
  let w := l.map Prod.fst
  let c := Raymarching.cumprod (w.map fun a => 1 - a)
  let c := (c.take 1).map (fun _ => 1) ++ c.dropLast
  (List.zipWith (· * ·) (List.zipWith (· * ·) w c) (l.map Prod.snd)).sum

/-- `render_mask` (line 158). -/
def mask (w : List K) : K := -(w.map fun a => 1 - a).prod + 1

/-- What `rasterize_mc_samples` (rasterize_mc.py:129-151) returns for a pixel whose fragments have weight, feature and mask: the composited feature and
the product of the composited masks with the rendering mask. -/
def mcPixel (l : List (K × K × K)) : K × K :=
  (over (l.map fun c => (c.1, c.2.1)), over (l.map fun c => (c.1, c.2.2)) * mask (l.map fun c => c.1))

/-- The clamped depth is at least `eps` away from the camera plane and on the same side (in front if on it), and unchanged if it was so before. -/
theorem signedClamp_spec (x eps : K) :
    (0 ≤ x → signedClamp x eps = max x eps) ∧ (x < 0 → signedClamp x eps = -max (-x) eps) ∧ (eps ≤ |x| → signedClamp x eps = x) := by
  have h1 : 0 ≤ x → signedClamp x eps = max x eps := by
    intro h
    unfold signedClamp
    rcases h.lt_or_eq with h' | h'
    · rw [if_pos h', if_neg h'.ne', abs_of_nonneg h]
      ring
    · rw [← h']
      simp
  have h2 : x < 0 → signedClamp x eps = -max (-x) eps := by
    intro h
    unfold signedClamp
    rw [if_neg (not_lt.mpr h.le), if_pos h, if_neg h.ne, abs_of_neg h]
    ring
  refine ⟨h1, h2, fun h => ?_⟩
  rcases lt_or_ge x 0 with hx | hx
  · rw [h2 hx]
    rw [abs_of_neg hx] at h
    rw [max_eq_left h, neg_neg]
  · rw [h1 hx]
    rw [abs_of_nonneg hx] at h
    exact max_eq_left h

theorem cumprod_from (acc : K) (l : List (K × K)) : (List.zipWith (· * ·) (List.zipWith (· * ·) (l.map Prod.fst)
    (acc :: (Raymarching.cumprodFrom acc ((l.map Prod.fst).map fun a => 1 - a)).dropLast)) (l.map Prod.snd)).sum = acc * over l := by
  induction l generalizing acc with
  | nil => simp [over]
  | cons c l ih =>
    obtain ⟨a, f⟩ := c
    cases l with
    | nil =>
      simp [over, Raymarching.cumprodFrom]
      ring
    | cons d l =>
      have := ih (acc * (1 - a))
      simp only [List.map_cons, Raymarching.cumprodFrom] at this ⊢
      rw [List.dropLast_cons_cons]
      rw [List.zipWith_cons_cons, List.zipWith_cons_cons, List.sum_cons, this]
      rw [show over ((a, f) :: d :: l) = a * f + (1 - a) * over (d :: l) from rfl]
      ring

/-- The rendered depth is the composite of the fragments' depths, as for colours. -/
theorem depth_over (l : List (K × K)) : depth l = over l := by
  cases l with
  | nil => rfl
  | cons c l =>
    have := cumprod_from 1 (c :: l)
    rw [one_mul] at this
    rw [← this]
    simp [depth, Raymarching.cumprod, Raymarching.cumprodFrom]

theorem mask_eq (l : List (K × K)) : mask (l.map Prod.fst) = 1 - transmitted l := by
  unfold mask transmitted
  rw [List.map_map]
  have : ((fun a : K => 1 - a) ∘ Prod.fst) = fun c : K × K => 1 - c.1 := rfl
  rw [this]
  ring

theorem over_bounds (l : List (K × K)) (lo hi : K) (h : ∀ c ∈ l, 0 ≤ c.1 ∧ c.1 ≤ 1 ∧ lo ≤ c.2 ∧ c.2 ≤ hi) :
    lo * (1 - transmitted l) ≤ over l ∧ over l ≤ hi * (1 - transmitted l) := by
  induction l with
  | nil => simp [over, transmitted]
  | cons c l ih =>
    obtain ⟨a, f⟩ := c
    obtain ⟨h1, h2⟩ := ih fun c hc => h c (List.mem_cons_of_mem _ hc)
    obtain ⟨a0, a1, f0, f1⟩ := h (a, f) List.mem_cons_self
    dsimp only at a0 a1 f0 f1
    have et : transmitted ((a, f) :: l) = (1 - a) * transmitted l := by simp [transmitted]
    have eo : over ((a, f) :: l) = a * f + (1 - a) * over l := rfl
    rw [et, eo]
    have m1 := mul_le_mul_of_nonneg_left f0 a0
    have m2 := mul_le_mul_of_nonneg_left f1 a0
    have m3 := mul_le_mul_of_nonneg_left h1 (sub_nonneg.mpr a1)
    have m4 := mul_le_mul_of_nonneg_left h2 (sub_nonneg.mpr a1)
    constructor <;> nlinarith

/-- Rendered depths are not divided by the opacity: they lie between the opacity times the smallest and times the largest depth of the points. -/
theorem depth_scaled (l : List (K × K)) (lo hi : K) (h : ∀ c ∈ l, 0 ≤ c.1 ∧ c.1 ≤ 1 ∧ lo ≤ c.2 ∧ c.2 ≤ hi) :
    lo * mask (l.map Prod.fst) ≤ depth l ∧ depth l ≤ hi * mask (l.map Prod.fst) := by
  rw [depth_over, mask_eq]
  exact over_bounds l lo hi h

/-- A flat surface at depth `z` is rendered at depth `z` only where it is opaque. -/
theorem depth_flat (l : List (K × K)) (z : K) (hz : z ≠ 0) (h : ∀ c ∈ l, 0 ≤ c.1 ∧ c.1 ≤ 1 ∧ c.2 = z) :
    depth l = z * mask (l.map Prod.fst) ∧ (depth l = z ↔ mask (l.map Prod.fst) = 1) := by
  have h1 := depth_scaled l z z fun c hc => ⟨(h c hc).1, (h c hc).2.1, (h c hc).2.2.ge, (h c hc).2.2.le⟩
  have e : depth l = z * mask (l.map Prod.fst) := le_antisymm h1.2 h1.1
  refine ⟨e, ?_⟩
  rw [e]
  constructor
  · intro h
    exact mul_left_cancel₀ hz (by rw [h, mul_one])
  · intro h
    rw [h, mul_one]

/-- Monte-Carlo samples with a mask of ones: the returned mask is the square of the opacity. -/
theorem mc_mask (l : List (K × K × K)) (h : ∀ c ∈ l, c.2.2 = 1) : (mcPixel l).2 = mask (l.map fun c => c.1) ^ 2 := by
  unfold mcPixel
  dsimp only
  have e : over (l.map fun c => (c.1, c.2.2)) = mask (l.map fun c => c.1) := by
    induction l with
    | nil => simp [over, mask]
    | cons c l ih =>
      have ih := ih fun c hc => h c (List.mem_cons_of_mem _ hc)
      have hc := h c List.mem_cons_self
      rw [List.map_cons, List.map_cons, over, ih, hc]
      simp only [mask, List.map_cons, List.prod_cons]
      ring
  rw [e]
  ring

/-- The features of a constant image are multiplied by the opacity. -/
theorem mc_feature (l : List (K × K × K)) (v : K) (h : ∀ c ∈ l, c.2.1 = v) : (mcPixel l).1 = v * mask (l.map fun c => c.1) := by
  unfold mcPixel
  dsimp only
  induction l with
  | nil => simp [over, mask]
  | cons c l ih =>
    have ih := ih fun c hc => h c (List.mem_cons_of_mem _ hc)
    have hc := h c List.mem_cons_self
    rw [List.map_cons, List.map_cons, over, ih, hc]
    simp only [mask, List.map_cons, List.prod_cons]
    ring

end render

/-! ### Point clouds from depth maps -/

section rgbd

/-- A pixel of the batch: its ray, depth, mask if there are masks, and colour. -/
structure Pixel where
  ray : Rays.Ray
  depth : ℝ
  mask : Option ℝ
  colour : ℝ

open Classical in
/-- `get_rgbd_point_cloud` (point_cloud_utils.py:25-89), after the rays and the resized colours: points and features. -/
noncomputable def rgbd (thr : ℝ) (l : List Pixel) : List (V3 ℝ × ℝ) :=
  (l.filter fun p => decide (0 < p.depth) && (match p.mask with | none => true | some m => decide (thr < m))).map fun p =>
    (p.ray.origin + p.depth • p.ray.dir, p.colour)

/-- The points are exactly those of the pixels with positive depth and a mask above (not at) the threshold. -/
theorem mem_rgbd (thr : ℝ) (l : List Pixel) (q : V3 ℝ × ℝ) : q ∈ rgbd thr l ↔
    ∃ p ∈ l, 0 < p.depth ∧ (∀ m, p.mask = some m → thr < m) ∧ q = (p.ray.origin + p.depth • p.ray.dir, p.colour) := by
  unfold rgbd
  rw [List.mem_map]
  constructor
  · rintro ⟨p, hp, rfl⟩
    obtain ⟨h1, h2⟩ := List.mem_filter.mp hp
    rw [Bool.and_eq_true, decide_eq_true_eq] at h2
    refine ⟨p, h1, h2.1, ?_, rfl⟩
    intro m hm
    have := h2.2
    rw [hm] at this
    exact of_decide_eq_true this
  · rintro ⟨p, h1, h2, h3, rfl⟩
    refine ⟨p, List.mem_filter.mpr ⟨h1, ?_⟩, rfl⟩
    rw [Bool.and_eq_true, decide_eq_true_eq]
    refine ⟨h2, ?_⟩
    cases hm : p.mask with
    | none => rfl
    | some m => exact decide_eq_true (h3 m hm)

/-- Depths along the axis: the point is seen at the pixel and has the given depth. -/
theorem rgbd_depth (c : Camera.Cam ℝ) (i : Nat) (p : Pixel) (hr : Rays.OnRay c i false p.ray) (hd : 0 < p.depth) :
    (Camera.viewPoint c i (p.ray.origin + p.depth • p.ray.dir)).z = p.depth ∧
      (Camera.ndcPoint c i (p.ray.origin + p.depth • p.ray.dir)).x = p.ray.xy.1 ∧ (Camera.ndcPoint c i (p.ray.origin + p.depth • p.ray.dir)).y = p.ray.xy.2 := by
  obtain ⟨d, hs, he⟩ := hr
  rw [if_neg (by decide)] at he
  rw [he]
  obtain ⟨h1, h2⟩ := hs.2 p.depth
  exact ⟨h1, h2 fun _ => hd.ne'⟩

/-- Euclidean depths: the distance from the origin of the ray is the given one, and the pixel is the same. -/
theorem rgbd_euclidean (c : Camera.Cam ℝ) (i : Nat) (p : Pixel) (d : V3 ℝ) (hs : Rays.Sees c i p.ray.origin d p.ray.xy) (he : p.ray.dir = Rays.normalize d)
    (hn : 1 / 10 ^ 12 ≤ Rot.norm d) (hd : 0 < p.depth) :
    Rot.norm (p.ray.origin + p.depth • p.ray.dir - p.ray.origin) = p.depth ∧
      (Camera.ndcPoint c i (p.ray.origin + p.depth • p.ray.dir)).x = p.ray.xy.1 ∧ (Camera.ndcPoint c i (p.ray.origin + p.depth • p.ray.dir)).y = p.ray.xy.2 := by
  have hpos : 0 < Rot.norm d := lt_of_lt_of_le (by norm_num) hn
  have e : p.depth • p.ray.dir = (p.depth / Rot.norm d) • d := by
    rw [he, Rays.normalize, max_eq_left hn]
    ext <;> simp <;> ring
  rw [e]
  have hz : p.depth / Rot.norm d ≠ 0 := (div_pos hd hpos).ne'
  refine ⟨?_, (hs.2 _).2 fun _ => hz⟩
  have e2 : p.ray.origin + (p.depth / Rot.norm d) • d - p.ray.origin = (p.depth / Rot.norm d) • d := by
    ext <;> simp
  rw [e2]
  rw [Rot.norm_smul', abs_of_pos (div_pos hd hpos)]
  field_simp

end rgbd

/-! ### Cleaning of depth maps -/

section cleanup

/-- A point of the padded cloud: projection, depth, and whether it is no padding. -/
structure Pt where
  x : ℝ
  y : ℝ
  z : ℝ
  valid : Bool

/-- The mode of `grid_sample` used (depth_cleanup.py:44-46). -/
def cfg : Uv.Cfg := ⟨.nearest, false, .zeros⟩

/-- The map of pixel indices (lines 36-42). -/
def idxMap (m : Uv.TexMap ℝ) : Uv.TexMap ℝ := ⟨m.H, m.W, fun i j => (i : ℝ) * m.W + j⟩

noncomputable def sampledDepth (m : Uv.TexMap ℝ) (p : Pt) : ℝ := Uv.gridSample cfg m (-p.x) (-p.y)
noncomputable def sampledIdx (m : Uv.TexMap ℝ) (p : Pt) : Int := Uv.roundEven (Uv.gridSample cfg (idxMap m) (-p.x) (-p.y))

open Classical in
noncomputable def good (m : Uv.TexMap ℝ) (thr : ℝ) (p : Pt) : ℝ := (if |sampledDepth m p - p.z| ≤ thr then 1 else 0) * (if p.valid then 1 else 0)

/-- The threshold (lines 52-60), from the pixels' depths and weights. -/
noncomputable def threshold (sigma : ℝ) (l : List (ℝ × ℝ)) : ℝ :=
  let mean (f : ℝ → ℝ) := (l.map fun c => f c.1 * c.2).sum / max (l.map fun c => c.2).sum (1 / 10 ^ 9)
  let mu := mean id
  √(max (mean fun d => (d - mu) ^ 2) (1 / 10 ^ 4)) * sigma

open Classical in
/-- `cleanup_eval_depth` at pixel `q` (lines 61-69). -/
noncomputable def cleanup (m : Uv.TexMap ℝ) (thr : ℝ) (pts : List Pt) (q : Nat) : ℝ :=
  if 0 < ((pts.filter fun p => decide (sampledIdx m p = (q : Int))).map (good m thr)).sum then 1 else 0

theorem good_nonneg (m : Uv.TexMap ℝ) (thr : ℝ) (p : Pt) : 0 ≤ good m thr p := by
  unfold good
  split_ifs <;> norm_num

/-- A pixel is kept if and only if some point of the cloud falls on it and agrees with its depth up to the threshold. -/
theorem cleanup_spec (m : Uv.TexMap ℝ) (thr : ℝ) (pts : List Pt) (q : Nat) :
    cleanup m thr pts q = 1 ↔ ∃ p ∈ pts, p.valid = true ∧ sampledIdx m p = q ∧ |sampledDepth m p - p.z| ≤ thr := by
  have key : ∀ l : List Pt, 0 < (l.map (good m thr)).sum ↔ ∃ p ∈ l, p.valid = true ∧ |sampledDepth m p - p.z| ≤ thr := by
    intro l
    have hn : ∀ l : List Pt, 0 ≤ (l.map (good m thr)).sum := by
      intro l
      apply List.sum_nonneg
      intro x hx
      obtain ⟨p, -, rfl⟩ := List.mem_map.mp hx
      exact good_nonneg m thr p
    induction l with
    | nil => simp
    | cons p l ih =>
      rw [List.map_cons, List.sum_cons]
      have hl := hn l
      by_cases hp : p.valid = true ∧ |sampledDepth m p - p.z| ≤ thr
      · have : good m thr p = 1 := by
          unfold good
          rw [if_pos hp.2, if_pos hp.1, mul_one]
        rw [this]
        constructor
        · intro _
          exact ⟨p, List.mem_cons_self, hp⟩
        · intro _
          linarith
      · have : good m thr p = 0 := by
          unfold good
          by_cases hv : p.valid = true
          · rw [if_neg (fun h => hp ⟨hv, h⟩), zero_mul]
          · rw [if_neg hv, mul_zero]
        rw [this, zero_add]
        refine ih.trans ?_
        constructor
        · rintro ⟨r, hr, h⟩
          exact ⟨r, List.mem_cons_of_mem _ hr, h⟩
        · rintro ⟨r, hr, h⟩
          rcases List.mem_cons.mp hr with rfl | hr
          · exact absurd h hp
          · exact ⟨r, hr, h⟩
  unfold cleanup
  have e : (if 0 < ((pts.filter fun p => decide (sampledIdx m p = (q : Int))).map (good m thr)).sum then (1 : ℝ) else 0) = 1 ↔
      0 < ((pts.filter fun p => decide (sampledIdx m p = (q : Int))).map (good m thr)).sum := by
    split_ifs with h <;> simp [h]
  rw [e, key]
  constructor
  · rintro ⟨p, hp, h1, h2⟩
    obtain ⟨h3, h4⟩ := List.mem_filter.mp hp
    exact ⟨p, h3, h1, of_decide_eq_true h4, h2⟩
  · rintro ⟨p, hp, h1, h2, h3⟩
    exact ⟨p, List.mem_filter.mpr ⟨hp, decide_eq_true h2⟩, h1, h3⟩

theorem threshold_pos (sigma : ℝ) (hs : 0 ≤ sigma) (l : List (ℝ × ℝ)) : sigma / 100 ≤ threshold sigma l := by
  unfold threshold
  dsimp only
  have : (1 / 100 : ℝ) ≤ √(max ((l.map fun c => (fun d => (d - (l.map fun c => id c.1 * c.2).sum / max (l.map fun c => c.2).sum (1 / 10 ^ 9)) ^ 2) c.1 * c.2).sum /
      max (l.map fun c => c.2).sum (1 / 10 ^ 9)) (1 / 10 ^ 4)) := by
    apply Real.le_sqrt_of_sq_le
    refine le_trans ?_ (le_max_right _ _)
    norm_num
  have := mul_le_mul_of_nonneg_right this hs
  linarith

/-- The column (or row) in which a coordinate is looked up. -/
noncomputable def lookup (size : Nat) (x : ℝ) : Int := Uv.roundEven (Uv.unnorm false size (-x))

theorem sampled_texel (m : Uv.TexMap ℝ) (p : Pt) : sampledDepth m p = Uv.texel m (lookup m.H p.y) (lookup m.W p.x) ∧
    sampledIdx m p = Uv.roundEven (Uv.texel (idxMap m) (lookup m.H p.y) (lookup m.W p.x)) := ⟨rfl, rfl⟩

/-- In a square image a coordinate inside the interval of a pixel is looked up in that pixel. -/
theorem lookup_square (n j : Nat) (hn : 0 < n) (x : ℝ) (h : |x - Raster.centre j n n| < 1 / n) : lookup n x = j := by
  have hn' : (0 : ℝ) < n := by exact_mod_cast hn
  unfold lookup Uv.unnorm
  rw [if_neg (by decide)]
  rw [Raster.centre, Raster.ndcRange, if_neg (lt_irrefl n)] at h
  rw [abs_lt] at h
  have h1 := mul_lt_mul_of_pos_right h.1 hn'
  have h2 := mul_lt_mul_of_pos_right h.2 hn'
  have e : (x - 2 / 2 * (1 - (2 * (j : ℝ) + 1) / n)) * n = x * n - n + (2 * j + 1) := by
    field_simp
    ring
  rw [e] at h1 h2
  have e1 : -(1 / (n : ℝ)) * n = -1 := by field_simp
  have e2 : 1 / (n : ℝ) * n = 1 := by field_simp
  rw [e1] at h1
  rw [e2] at h2
  apply UvMaps.roundEven_near
  · push_cast
    linarith
  · push_cast
    linarith

/-- Square images: a point inside a pixel is compared with that pixel's depth, and keeps that pixel. -/
theorem square_pixel (m : Uv.TexMap ℝ) (n : Nat) (hH : m.H = n) (hW : m.W = n) (i j : Nat) (hi : i < n) (hj : j < n) (p : Pt)
    (hx : |p.x - Raster.centre j n n| < 1 / n) (hy : |p.y - Raster.centre i n n| < 1 / n) :
    sampledDepth m p = m.val i j ∧ sampledIdx m p = (i * n + j : Nat) := by
  obtain ⟨h1, h2⟩ := sampled_texel m p
  rw [h1, h2, hH, hW, lookup_square n i (by omega) _ hy, lookup_square n j (by omega) _ hx]
  have hr : 0 ≤ (i : Int) ∧ (i : Int) < m.H ∧ 0 ≤ (j : Int) ∧ (j : Int) < m.W := by
    rw [hH, hW]
    omega
  have hr' : 0 ≤ (i : Int) ∧ (i : Int) < (idxMap m).H ∧ 0 ≤ (j : Int) ∧ (j : Int) < (idxMap m).W := hr
  unfold Uv.texel
  rw [if_pos hr, if_pos hr']
  refine ⟨rfl, ?_⟩
  have : (idxMap m).val i j = (((i * n + j : Nat) : Int) : ℝ) := by
    simp [idxMap, hW]
  rw [this, Uv.roundEven_int]

/-- Images that are wider than high (or the other way round): NDC coordinates reach `W / H`, but are looked up as if they reached 1, so the centre of pixel `j` is looked up
`(W - 1 - 2j) / 2 * (1 - W / H)` pixels away from it: right only in the middle. -/
theorem wide_shift (W H j : Nat) (hH : 0 < H) (h : H < W) :
    Uv.unnorm false W (-(Raster.centre j W H : ℝ)) - j = ((W : ℝ) - 1 - 2 * j) / 2 * (1 - (W : ℝ) / H) ∧
      (Uv.unnorm false W (-(Raster.centre j W H : ℝ)) = j ↔ 2 * j + 1 = W) := by
  have hH' : (0 : ℝ) < H := by exact_mod_cast hH
  have hW' : (H : ℝ) < W := by exact_mod_cast h
  have hWp : (0 : ℝ) < W := by linarith
  have e : Uv.unnorm false W (-(Raster.centre j W H : ℝ)) - j = ((W : ℝ) - 1 - 2 * j) / 2 * (1 - (W : ℝ) / H) := by
    unfold Uv.unnorm Raster.centre Raster.ndcRange
    rw [if_neg (by decide), if_pos h]
    push_cast
    field_simp
    ring
  refine ⟨e, ?_⟩
  rw [← sub_eq_zero, e, mul_eq_zero]
  have hne : (1 - (W : ℝ) / H) ≠ 0 := by
    rw [sub_ne_zero]
    intro hc
    rw [eq_div_iff hH'.ne', one_mul] at hc
    linarith
  constructor
  · rintro (h | h)
    · have : (2 * (j : ℝ) + 1) = W := by linarith
      exact_mod_cast this
    · exact absurd h hne
  · intro h
    left
    have : (2 * (j : ℝ) + 1) = W := by exact_mod_cast h
    linarith

/-- Points outside the image are looked up at pixel 0 with depth 0: the first pixel is kept if such a point lies near the camera plane. -/
theorem outside_first (m : Uv.TexMap ℝ) (thr : ℝ) (p : Pt) (hv : p.valid = true) (h : lookup m.W p.x < 0 ∨ (m.W : Int) ≤ lookup m.W p.x) (hz : |p.z| ≤ thr) :
    cleanup m thr [p] 0 = 1 := by
  obtain ⟨h1, h2⟩ := sampled_texel m p
  have hr : ¬ (0 ≤ lookup m.H p.y ∧ lookup m.H p.y < m.H ∧ 0 ≤ lookup m.W p.x ∧ lookup m.W p.x < m.W) := by omega
  have hr' : ¬ (0 ≤ lookup m.H p.y ∧ lookup m.H p.y < (idxMap m).H ∧ 0 ≤ lookup m.W p.x ∧ lookup m.W p.x < (idxMap m).W) := hr
  rw [cleanup_spec]
  refine ⟨p, List.mem_singleton.mpr rfl, hv, ?_, ?_⟩
  · rw [h2]
    unfold Uv.texel
    rw [if_neg hr']
    exact_mod_cast Uv.roundEven_int (K := ℝ) 0
  · rw [h1]
    unfold Uv.texel
    rw [if_neg hr, zero_sub, abs_neg]
    exact hz

end cleanup

/-! ### Examples -/

example : depth [((1 : ℚ) / 2, 2), (1 / 2, 4), (0, -1)] = 2 ∧ mask [(1 : ℚ) / 2, 1 / 2, 0] = 3 / 4 := by decide +kernel
example : signedClamp (-1 / 1000 : ℚ) (1 / 100) = -1 / 100 ∧ signedClamp (0 : ℚ) (1 / 100) = 1 / 100 ∧ signedClamp (-3 : ℚ) (1 / 100) = -3 := by decide +kernel
example : mcPixel [((1 : ℚ) / 2, 8, 1)] = (4, 1 / 4) := by decide +kernel

/-- In an image of 2 x 4 pixels the centre of column 0 is looked up in column `-3 / 2`, outside. -/
example : Uv.unnorm false 4 (-(Raster.centre 0 4 2 : ℚ)) = -3 / 2 := by decide +kernel

end P3D.PclTools
