/-
Bounding boxes, cropping and resizing of frames: `implicitron/dataset/utils.py` and the methods of `FrameData` in
`implicitron/dataset/frame_data.py`.  Numbers are elements of an ordered field with a floor; images are functions of row and column.
-/
import Mathlib.Algebra.Order.Floor.Ring
import Mathlib.Algebra.Order.Field.Basic
import Mathlib.Algebra.Order.Archimedean.Basic
import Mathlib.Data.Rat.Floor
import Mathlib.Tactic.Linarith
import Mathlib.Tactic.FieldSimp
import Mathlib.Tactic.LinearCombination
import Mathlib.Tactic.Ring
import Mathlib.Tactic.NormNum

set_option linter.unusedSectionVars false
set_option linter.unusedSimpArgs false
set_option linter.unusedVariables false

namespace P3D.FrameCrop

variable {K : Type} [Field K] [LinearOrder K] [IsStrictOrderedRing K] [FloorRing K]

inductive Err
  | value | assertion | runtime
  deriving DecidableEq, Repr

/-! ### Model: boxes from masks -/

/-- Number of pixels above a threshold: `masks_for_box.sum()`. -/
def above (H W : Nat) (mask : Nat → Nat → K) (t : K) : Nat :=
  (((List.range H).flatMap fun y => (List.range W).map fun x => (y, x)).filter fun p => decide (t < mask p.1 p.2)).length

/-- The loop of `get_bbox_from_mask` (dataset/utils.py:100-102), `fuel` turns at most: the threshold at which it stops. -/
def thrLoop (H W : Nat) (mask : Nat → Nat → K) (q : K) : Nat → K → Option K
  | 0, _ => none
  | n + 1, t => if 1 < above H W mask t then some t else thrLoop H W mask q n (t - q)

/-- `get_1d_bounds` (dataset/utils.py:200-202). -/
def bounds (n : Nat) (nz : Nat → Bool) : Option (Nat × Nat) :=
  match ((List.range n).filter nz).head?, ((List.range n).filter nz).getLast? with
  | some a, some b => some (a, b + 1)
  | _, _ => none

/-- `get_bbox_from_mask` (dataset/utils.py:86-111) of a mask of one channel: `x0, y0, width, height`; `none` if the loop does not end within
`fuel` turns. -/
def bboxFromMask (fuel H W : Nat) (mask : Nat → Nat → K) (thr q : K) : Option (Nat × Nat × Nat × Nat) :=
  if H * W = 0 then some (0, 0, 1, 1)
  else
    let mask' : Nat → Nat → K := fun y x => max (mask y x) 0
    match thrLoop H W mask' q fuel thr with
    | none => none
    | some t =>
      match bounds W (fun x => (List.range H).any fun y => decide (t < mask' y x)),
        bounds H (fun y => (List.range W).any fun x => decide (t < mask' y x)) with
      | some (x0, x1), some (y0, y1) => some (x0, y0, x1 - x0, y1 - y0)
      | _, _ => none

/-! ### Model: boxes -/

/-- `torch.round`: halves to even. -/
def rint (t : K) : Int :=
  if t - ⌊t⌋ < 1 / 2 then ⌊t⌋ else if 1 / 2 < t - ⌊t⌋ then ⌊t⌋ + 1 else if ⌊t⌋ % 2 = 0 then ⌊t⌋ else ⌊t⌋ + 1

structure XYWH (α : Type) where
  x : α
  y : α
  w : α
  h : α
  deriving DecidableEq

structure XYXY (α : Type) where
  x0 : α
  y0 : α
  x1 : α
  y1 : α
  deriving DecidableEq

/-- The expansion of `get_clamp_bbox` (dataset/utils.py:168-174). -/
def expand (c : K) (b : XYWH K) : XYWH K :=
  if 0 < c then ⟨b.x - b.w * c / 2, b.y - b.h * c / 2, b.w + b.w * c, b.h + b.h * c⟩ else b

/-- `bbox_xywh_to_xyxy` (dataset/utils.py:149-154). -/
def toXYXY (m : K) (b : XYWH K) : XYXY K := ⟨b.x, b.y, b.x + max b.w m, b.y + max b.h m⟩

/-- `get_clamp_bbox` (dataset/utils.py:157-184). -/
def clampBbox (c : K) (b : XYWH K) : Except Err (XYXY K) :=
  let b := expand c b
  if b.w ≤ 1 ∨ b.h ≤ 1 then .error .value else .ok (toXYXY 2 ⟨b.x, b.y, max b.w 2, max b.h 2⟩)

def clamp (lo hi t : K) : K := min (max t lo) hi

/-- `clamp_box_to_image_bounds_and_round` (dataset/utils.py:128-137). -/
def clampRound (H W : Nat) (b : XYXY K) : XYXY Int :=
  ⟨rint (clamp 0 (W : K) b.x0), rint (clamp 0 (H : K) b.y0), rint (clamp 0 (W : K) b.x1), rint (clamp 0 (H : K) b.y1)⟩

/-- `bbox_xyxy_to_xywh` (dataset/utils.py:143-146). -/
def toXYWH (b : XYXY Int) : XYWH Int := ⟨b.x0, b.y0, b.x1 - b.x0, b.y1 - b.y0⟩

/-- `.long()`: truncation towards zero. -/
def trunc (t : K) : Int := if 0 ≤ t then ⌊t⌋ else ⌈t⌉

/-- `rescale_bbox(bbox, orig_res, new_res).long()` (dataset/utils.py:187-197), the resolutions as height and width. -/
def rescale (orig new : Nat × Nat) (b : XYXY Int) : XYXY Int :=
  let r : K := ((new.1 : K) / orig.1 + (new.2 : K) / orig.2) / 2
  ⟨trunc ((b.x0 : K) * r), trunc ((b.y0 : K) * r), trunc ((b.x1 : K) * r), trunc ((b.y1 : K) * r)⟩

/-- An image: height, width, values. -/
structure Img (α : Type) where
  h : Nat
  w : Nat
  at' : Nat → Nat → α

/-- `torch.clamp` of integers. -/
def clampI (hi : Nat) (t : Int) : Nat := (min (max t 0) hi).toNat

/-- `crop_around_box` of an integer box (dataset/utils.py:114-125). -/
def cropImg {α : Type} (b : XYXY Int) (im : Img α) : Except Err (Img α) :=
  let x0 := clampI im.w b.x0
  let y0 := clampI im.h b.y0
  let x1 := clampI im.w b.x1
  let y1 := clampI im.h b.y1
  if 0 < y1 - y0 ∧ 0 < x1 - x0 then .ok ⟨y1 - y0, x1 - x0, fun i j => im.at' (i + y0) (j + x0)⟩ else .error .assertion

/-! ### Model: cameras -/

/-- Focal length and principal point in NDC. -/
structure Cam (K : Type) where
  f : K × K
  p : K × K
  deriving DecidableEq

/-- `_convert_ndc_to_pixels` (dataset/utils.py:324-333). -/
def toPixels (w h : K) (c : Cam K) : Cam K :=
  let r := min (w / 2) (h / 2)
  ⟨(c.f.1 * r, c.f.2 * r), (w / 2 - c.p.1 * r, h / 2 - c.p.2 * r)⟩

/-- `_convert_pixels_to_ndc` (dataset/utils.py:336-345). -/
def toNdc (w h : K) (c : Cam K) : Cam K :=
  let r := min (w / 2) (h / 2)
  ⟨(c.f.1 / r, c.f.2 / r), ((w / 2 - c.p.1) / r, (h / 2 - c.p.2) / r)⟩

/-- `adjust_camera_to_bbox_crop_` (dataset/utils.py:348-372). -/
def camCrop (w h : K) (b : XYWH K) (c : Cam K) : Cam K :=
  let px := toPixels w h c
  toNdc b.w b.h ⟨px.f, (px.p.1 - b.x, px.p.2 - b.y)⟩

/-- `scale` (dataset/utils.py:390, also `minscale` of `resize_image`, :224-227). -/
def minScale (w h w' h' : K) : K := min (w' / w) (h' / h)

/-- `adjust_camera_to_image_scale_` (dataset/utils.py:375-402). -/
def camScale (w h w' h' : K) (c : Cam K) : Cam K :=
  let px := toPixels w h c
  let s := minScale w h w' h'
  toNdc w' h' ⟨(px.f.1 * s, px.f.2 * s), (px.p.1 * s, px.p.2 * s)⟩

/-- The camera of an annotation in the legacy format `ndc_norm_image_bounds` (frame_data.py:755-763). -/
def camLegacy (w h : K) (c : Cam K) : Cam K :=
  let m := min w h
  ⟨(c.f.1 * (w / m), c.f.2 * (h / m)), (c.p.1 * (w / m), c.p.2 * (h / m))⟩

/-! ### Model: frames -/

/-- The fields of `FrameData` that cropping changes. -/
structure Frame (K α : Type) where
  size : Option (Nat × Nat)
  rgb : Option (Img α)
  fg : Option (Img α)
  depth : Option (Img α)
  cam : Option (Cam K)
  bbox : Option (XYWH K)
  crop : Option (XYWH Int)
  uncropped : Bool

/-- Crop an optional image. -/
def cropOpt {α : Type} (b : XYXY Int) : Option (Img α) → Except Err (Option (Img α))
  | none => .ok none
  | some im => match cropImg b im with
    | .error e => .error e
    | .ok r => .ok (some r)

/-- Crop an optional depth map (frame_data.py:293-307; `depth_mask` is treated the same way). -/
def cropDepth {α : Type} (K : Type) [Field K] [LinearOrder K] [IsStrictOrderedRing K] [FloorRing K] (hw : Nat × Nat) (b : XYXY Int) :
    Option (Img α) → Except Err (Option (Img α))
  | none => .ok none
  | some im => match cropImg (rescale (K := K) (im.h, im.w) hw b) im with
    | .error e => .error e
    | .ok r => .ok (some r)

def intBox (b : XYWH Int) : XYWH K := ⟨b.x, b.y, b.w, b.h⟩

/-- `_crop_by_bbox_` (frame_data.py:250-337). -/
def cropBy {α : Type} (c : K) (b : XYWH K) (F : Frame K α) : Except Err (Frame K α) :=
  match F.size with
  | none => .error .value
  | some (H, W) =>
    match clampBbox c b with
    | .error e => .error e
    | .ok xyxy =>
      let bb := clampRound H W xyxy
      match cropOpt bb F.fg with
      | .error e => .error e
      | .ok fg =>
        match cropOpt bb F.rgb with
        | .error e => .error e
        | .ok rgb =>
          match cropDepth K (H, W) bb F.depth with
          | .error e => .error e
          | .ok depth =>
            let wh := toXYWH bb
            .ok { size := some (wh.h.toNat, wh.w.toNat), rgb := rgb, fg := fg, depth := depth
                  cam := F.cam.map (camCrop (W : K) (H : K) (intBox wh)), bbox := F.bbox, crop := some wh, uncropped := false }

/-- `crop_by_metadata_bbox_` (frame_data.py:189-225). -/
def cropByMetadata {α : Type} (c : K) (F : Frame K α) : Except Err (Frame K α) :=
  match F.bbox with
  | none => .error .value
  | some b => if F.uncropped then cropBy c b F else .error .value

/-! ### Model: resizing -/

/-- Height and width of the interpolated image: `scale_factor` with `recompute_scale_factor` (dataset/utils.py:229-235). -/
def outSize (K : Type) [Field K] [LinearOrder K] [IsStrictOrderedRing K] [FloorRing K] (h w h' w' : Nat) : Nat × Nat :=
  let s : K := minScale (w : K) (h : K) (w' : K) (h' : K)
  (⌊(h : K) * s⌋.toNat, ⌊(w : K) * s⌋.toNat)

/-- The index read by interpolation of mode nearest. -/
def nearestIdx (K : Type) [Field K] [LinearOrder K] [IsStrictOrderedRing K] [FloorRing K] (n out i : Nat) : Nat :=
  min (⌊(i : K) * ((n : K) / (out : K))⌋.toNat) (n - 1)

/-- `resize_image` of mode nearest with a given size (dataset/utils.py:205-241): the image and the mask. An empty image is returned as it is; a
size of zero is refused by the interpolation. -/
def resizeNearest (K : Type) [Field K] [LinearOrder K] [IsStrictOrderedRing K] [FloorRing K] {α : Type} [Zero α] (h' w' : Nat) (im : Img α) :
    Except Err (Img α × Img Bool) :=
  if im.h = 0 ∨ im.w = 0 then .ok (im, ⟨im.h, im.w, fun _ _ => true⟩)
  else
    let o := outSize K im.h im.w h' w'
    if o.1 = 0 ∨ o.2 = 0 then .error .runtime
    else .ok (⟨h', w', fun i j => if i < o.1 ∧ j < o.2 then im.at' (nearestIdx K im.h o.1 i) (nearestIdx K im.w o.2 j) else 0⟩,
      ⟨h', w', fun i j => decide (i < o.1 ∧ j < o.2)⟩)

/-! ### Boxes from masks -/

theorem above_mono (H W : Nat) (mask : Nat → Nat → K) {s t : K} (h : s ≤ t) : above H W mask t ≤ above H W mask s := by
  unfold above
  apply List.Sublist.length_le
  apply List.monotone_filter_right
  intro p hp
  rw [decide_eq_true_eq] at hp ⊢
  exact lt_of_le_of_lt h hp

theorem above_all {H W : Nat} {mask : Nat → Nat → K} {t : K} (h : ∀ y < H, ∀ x < W, t < mask y x) : above H W mask t = H * W := by
  unfold above
  rw [List.filter_eq_self.2]
  · simp [List.length_flatMap]
  · intro p hp
    simp only [List.mem_flatMap, List.mem_map, List.mem_range] at hp
    obtain ⟨y, hy, x, hx, rfl⟩ := hp
    exact decide_eq_true (h y hy x hx)

theorem above_le (H W : Nat) (mask : Nat → Nat → K) (t : K) : above H W mask t ≤ H * W := by
  unfold above
  refine (List.length_filter_le _ _).trans ?_
  simp [List.length_flatMap]

/-- The loop stops at the first of the thresholds `thr, thr - q, …` with at least two pixels above it. -/
theorem thrLoop_spec {H W : Nat} {mask : Nat → Nat → K} {q : K} : ∀ {n : Nat} {thr t : K}, thrLoop H W mask q n thr = some t →
    ∃ m < n, t = thr - m * q ∧ 1 < above H W mask t ∧ ∀ k < m, above H W mask (thr - k * q) ≤ 1
  | 0, thr, t, h => by simp [thrLoop] at h
  | n + 1, thr, t, h => by
    rw [thrLoop] at h
    by_cases h1 : 1 < above H W mask thr
    · rw [if_pos h1] at h
      simp only [Option.some.injEq] at h
      subst h
      exact ⟨0, by omega, by simp, h1, by simp⟩
    · rw [if_neg h1] at h
      obtain ⟨m, hm, ht, h2, h3⟩ := thrLoop_spec h
      refine ⟨m + 1, by omega, by rw [ht]; push_cast; ring, h2, ?_⟩
      intro k hk
      rcases k with _ | k
      · simp; omega
      · have := h3 k (by omega)
        have e : thr - ((k + 1 : Nat) : K) * q = thr - q - k * q := by push_cast; ring
        rw [e]; exact this

/-- With at least two pixels, none negative, and a positive step the loop ends. -/
theorem thrLoop_ends {H W : Nat} {mask : Nat → Nat → K} {thr q : K} (hq : 0 < q) (hs : 2 ≤ H * W) (hm : ∀ y < H, ∀ x < W, 0 ≤ mask y x) :
    ∃ n t, thrLoop H W mask q n thr = some t := by
  have key : ∀ (m : Nat) (thr : K), thr - m * q < 0 → ∃ t, thrLoop H W mask q (m + 1) thr = some t := by
    intro m
    induction m with
    | zero =>
      intro thr h
      refine ⟨thr, ?_⟩
      rw [thrLoop, if_pos]
      rw [above_all fun y hy x hx => lt_of_lt_of_le (by simpa using h) (hm y hy x hx)]
      omega
    | succ m ih =>
      intro thr h
      rw [thrLoop]
      by_cases h1 : 1 < above H W mask thr
      · exact ⟨thr, by rw [if_pos h1]⟩
      · rw [if_neg h1]
        apply ih
        push_cast at h
        linarith
  have := FloorRing.archimedean K
  obtain ⟨m, hm'⟩ := exists_nat_gt (thr / q)
  rw [div_lt_iff₀ hq] at hm'
  obtain ⟨t, ht⟩ := key m thr (by linarith)
  exact ⟨_, t, ht⟩

/-- A mask of one pixel never ends the loop. -/
theorem thrLoop_single (mask : Nat → Nat → K) (q : K) : ∀ (n : Nat) (thr : K), thrLoop 1 1 mask q n thr = none
  | 0, _ => rfl
  | n + 1, thr => by
    rw [thrLoop, if_neg, thrLoop_single mask q n]
    have := above_le 1 1 mask thr
    omega

theorem bbox_single (fuel : Nat) (mask : Nat → Nat → K) (thr q : K) : bboxFromMask fuel 1 1 mask thr q = none := by
  unfold bboxFromMask
  simp only [Nat.mul_one, one_ne_zero, if_false, thrLoop_single]

theorem sorted_range_filter (n : Nat) (f : Nat → Bool) : ((List.range n).filter f).Pairwise (· < ·) :=
  (List.pairwise_lt_range (n := n)).filter f

theorem bounds_spec {n : Nat} {f : Nat → Bool} {a b : Nat} (h : bounds n f = some (a, b)) :
    a < b ∧ b ≤ n ∧ f a = true ∧ f (b - 1) = true ∧ ∀ i < n, f i = true → a ≤ i ∧ i < b := by
  unfold bounds at h
  have hp := sorted_range_filter n f
  have hm : ∀ i, i ∈ (List.range n).filter f ↔ i < n ∧ f i = true := by intro i; rw [List.mem_filter, List.mem_range]
  generalize (List.range n).filter f = l at *
  rcases l with _ | ⟨x, l⟩
  · simp at h
  · rw [List.head?_cons, List.getLast?_eq_getLast_of_ne_nil (by simp)] at h
    simp only [Option.some.injEq, Prod.mk.injEq] at h
    obtain ⟨rfl, rfl⟩ := h
    have hlast := List.getLast_mem (l := x :: l) (by simp)
    have hx := (hm x).1 (by simp)
    have hL := (hm _).1 hlast
    have hle : ∀ i ∈ x :: l, x ≤ i := by
      intro i hi
      rw [List.pairwise_cons] at hp
      rcases List.mem_cons.1 hi with rfl | hi
      · exact le_rfl
      · exact (hp.1 i hi).le
    have hge : ∀ i ∈ x :: l, i ≤ (x :: l).getLast (by simp) := by
      intro i hi
      have : (x :: l).Pairwise (· ≤ ·) := hp.imp fun h => h.le
      rw [List.pairwise_iff_getElem] at this
      obtain ⟨j, hj, rfl⟩ := List.mem_iff_getElem.1 hi
      rw [List.getLast_eq_getElem]
      rcases Nat.lt_or_ge j ((x :: l).length - 1) with h | h
      · exact this _ _ _ _ h
      · have : j = (x :: l).length - 1 := by omega
        subst this
        exact le_rfl
    refine ⟨by have := hle _ hlast; omega, by omega, hx.2, by simpa using hL.2, ?_⟩
    intro i hi hf
    have him := (hm i).2 ⟨hi, hf⟩
    exact ⟨hle i him, by have := hge i him; omega⟩

/-- The box of a mask is the smallest box around the pixels above the threshold at which the loop stops: all of them lie in it, each of its four
sides contains one; it has at least two pixels. -/
theorem bbox_tight {fuel H W : Nat} {mask : Nat → Nat → K} {thr q : K} {x0 y0 w h : Nat} (hs : H * W ≠ 0)
    (hb : bboxFromMask fuel H W mask thr q = some (x0, y0, w, h)) :
    ∃ m : Nat, 1 < above H W (fun y x => max (mask y x) 0) (thr - m * q) ∧
      (∀ k < m, above H W (fun y x => max (mask y x) 0) (thr - k * q) ≤ 1) ∧ 0 < w ∧ 0 < h ∧ x0 + w ≤ W ∧ y0 + h ≤ H ∧
      (∀ y < H, ∀ x < W, thr - m * q < max (mask y x) 0 → x0 ≤ x ∧ x < x0 + w ∧ y0 ≤ y ∧ y < y0 + h) ∧
      (∃ y < H, thr - m * q < max (mask y x0) 0) ∧ (∃ y < H, thr - m * q < max (mask y (x0 + w - 1)) 0) ∧
      (∃ x < W, thr - m * q < max (mask y0 x) 0) ∧ (∃ x < W, thr - m * q < max (mask (y0 + h - 1) x) 0) := by
  unfold bboxFromMask at hb
  rw [if_neg hs] at hb
  dsimp only at hb
  rcases ht : thrLoop H W (fun y x => max (mask y x) 0) q fuel thr with _ | t
  · rw [ht] at hb; simp at hb
  rw [ht] at hb
  dsimp only at hb
  obtain ⟨m, _, rfl, h1, h2⟩ := thrLoop_spec ht
  rcases hx : bounds W (fun x => (List.range H).any fun y => decide (thr - m * q < max (mask y x) 0)) with _ | ⟨a, b⟩
  · rw [hx] at hb; simp at hb
  rcases hy : bounds H (fun y => (List.range W).any fun x => decide (thr - m * q < max (mask y x) 0)) with _ | ⟨c, d⟩
  · rw [hx, hy] at hb; simp at hb
  rw [hx, hy] at hb
  simp only [Option.some.injEq, Prod.mk.injEq] at hb
  obtain ⟨rfl, rfl, rfl, rfl⟩ := hb
  obtain ⟨a1, a2, a3, a4, a5⟩ := bounds_spec hx
  obtain ⟨b1, b2, b3, b4, b5⟩ := bounds_spec hy
  simp only [List.any_eq_true, List.mem_range, decide_eq_true_eq] at a3 a4 a5 b3 b4 b5
  refine ⟨m, h1, h2, by omega, by omega, by omega, by omega, ?_, ?_, ?_, ?_, ?_⟩
  · intro y hy x hx hlt
    have := a5 x hx ⟨y, hy, hlt⟩
    have := b5 y hy ⟨x, hx, hlt⟩
    omega
  · exact a3
  · have e : a + (b - a) - 1 = b - 1 := by omega
    rw [e]; exact a4
  · exact b3
  · have e : c + (d - c) - 1 = d - 1 := by omega
    rw [e]; exact b4

/-- If at least two pixels are above the threshold it is used unchanged. -/
theorem bbox_threshold {fuel H W : Nat} {mask : Nat → Nat → K} {thr q : K} (h : 1 < above H W mask thr) :
    thrLoop H W mask q (fuel + 1) thr = some thr := by rw [thrLoop, if_pos h]

theorem bounds_some {n : Nat} {f : Nat → Bool} (h : ∃ i < n, f i = true) : ∃ r, bounds n f = some r := by
  obtain ⟨i, hi, hf⟩ := h
  unfold bounds
  have hm : i ∈ (List.range n).filter f := by rw [List.mem_filter, List.mem_range]; exact ⟨hi, hf⟩
  generalize (List.range n).filter f = l at *
  rcases l with _ | ⟨x, l⟩
  · simp at hm
  · rw [List.head?_cons, List.getLast?_eq_getLast_of_ne_nil (by simp)]
    exact ⟨_, rfl⟩

/-- A mask of at least two pixels gives a box. -/
theorem bbox_ok {H W : Nat} {mask : Nat → Nat → K} {thr q : K} (hq : 0 < q) (hs : 2 ≤ H * W) : ∃ fuel b, bboxFromMask fuel H W mask thr q = some b := by
  obtain ⟨n, t, ht⟩ := thrLoop_ends (mask := fun y x => max (mask y x) 0) (thr := thr) hq hs fun y _ x _ => le_max_right _ _
  refine ⟨n, ?_⟩
  unfold bboxFromMask
  rw [if_neg (by omega)]
  dsimp only
  rw [ht]
  dsimp only
  obtain ⟨m, _, _, h1, _⟩ := thrLoop_spec ht
  obtain ⟨y, hy, x, hx, hlt⟩ : ∃ y < H, ∃ x < W, t < max (mask y x) 0 := by
    by_contra hcon
    push Not at hcon
    have : above H W (fun y x => max (mask y x) 0) t = 0 := by
      unfold above
      rw [List.length_eq_zero_iff, List.filter_eq_nil_iff]
      intro p hp
      simp only [List.mem_flatMap, List.mem_map, List.mem_range] at hp
      obtain ⟨y, hy, x, hx, rfl⟩ := hp
      simpa using hcon y hy x hx
    omega
  obtain ⟨⟨a, b⟩, h2⟩ := bounds_some (n := W) (f := fun x => (List.range H).any fun y => decide (t < max (mask y x) 0))
    ⟨x, hx, by simp only [List.any_eq_true, List.mem_range, decide_eq_true_eq]; exact ⟨y, hy, hlt⟩⟩
  obtain ⟨⟨c, d⟩, h3⟩ := bounds_some (n := H) (f := fun y => (List.range W).any fun x => decide (t < max (mask y x) 0))
    ⟨y, hy, by simp only [List.any_eq_true, List.mem_range, decide_eq_true_eq]; exact ⟨x, hx, hlt⟩⟩
  rw [h2, h3]
  exact ⟨_, rfl⟩

/-! ### Rounded boxes -/

theorem rint_bound (t : K) : |(rint t : K) - t| ≤ 1 / 2 := by
  have h1 := Int.floor_le t
  have h2 := Int.lt_floor_add_one t
  rw [abs_le]
  unfold rint
  split_ifs with a b c <;> push_cast <;> constructor <;> linarith

theorem rint_int (n : Int) : rint (n : K) = n := by
  unfold rint
  rw [Int.floor_intCast, sub_self, if_pos (by norm_num)]

theorem rint_mono {a b : K} (h : a ≤ b) : rint a ≤ rint b := by
  rcases (Int.floor_mono h).lt_or_eq with hf | hf
  · have h1 : rint a ≤ ⌊a⌋ + 1 := by unfold rint; split_ifs <;> omega
    have h2 : ⌊b⌋ ≤ rint b := by unfold rint; split_ifs <;> omega
    omega
  · unfold rint
    rw [← hf]
    generalize (⌊a⌋ : Int) = n
    by_cases h1 : a - (n : K) < 1 / 2
    · rw [if_pos h1]; split_ifs <;> omega
    · rw [if_neg h1, if_neg (show ¬ b - (n : K) < 1 / 2 by intro h2; apply h1; linarith)]
      by_cases h2 : 1 / 2 < a - (n : K)
      · rw [if_pos h2, if_pos (show 1 / 2 < b - (n : K) by linarith)]
      · rw [if_neg h2]; split_ifs <;> omega

theorem rint_lt {a b : K} (h : 1 < b - a) : rint a < rint b := by
  have h1 := abs_le.1 (rint_bound a)
  have h2 := abs_le.1 (rint_bound b)
  have : (rint a : K) < rint b := by linarith [h1.2, h2.1]
  exact_mod_cast this

theorem clamp_range {lo hi t : K} (h : lo ≤ hi) : lo ≤ clamp lo hi t ∧ clamp lo hi t ≤ hi := by
  unfold clamp
  exact ⟨le_min (le_max_right _ _) h, min_le_right _ _⟩

theorem clamp_mono {lo hi s t : K} (h : s ≤ t) : clamp lo hi s ≤ clamp lo hi t := by
  unfold clamp
  exact min_le_min_right _ (max_le_max_right _ h)

theorem clamp_id {lo hi t : K} (h1 : lo ≤ t) (h2 : t ≤ hi) : clamp lo hi t = t := by
  unfold clamp
  rw [max_eq_left h1, min_eq_left h2]

/-- The expanded box has the same centre and its sides are `1 + c` times as long. -/
theorem expand_spec {c : K} (hc : 0 ≤ c) (b : XYWH K) :
    (expand c b).w = (1 + c) * b.w ∧ (expand c b).h = (1 + c) * b.h ∧ (expand c b).x + (expand c b).w / 2 = b.x + b.w / 2 ∧
      (expand c b).y + (expand c b).h / 2 = b.y + b.h / 2 := by
  unfold expand
  rcases hc.lt_or_eq with h | h
  · rw [if_pos h]
    refine ⟨?_, ?_, ?_, ?_⟩ <;> dsimp only <;> ring
  · subst h
    simp

/-- The crop box lies in the image, with its corners in order; they are the corners of the expanded box, which is made at least two pixels long,
clamped to the image, up to half a pixel. -/
theorem clampRound_spec (H W : Nat) {b : XYXY K} (hx : b.x0 ≤ b.x1) (hy : b.y0 ≤ b.y1) :
    0 ≤ (clampRound H W b).x0 ∧ (clampRound H W b).x0 ≤ (clampRound H W b).x1 ∧ (clampRound H W b).x1 ≤ W ∧
      0 ≤ (clampRound H W b).y0 ∧ (clampRound H W b).y0 ≤ (clampRound H W b).y1 ∧ (clampRound H W b).y1 ≤ H ∧
      |((clampRound H W b).x0 : K) - clamp 0 (W : K) b.x0| ≤ 1 / 2 ∧ |((clampRound H W b).x1 : K) - clamp 0 (W : K) b.x1| ≤ 1 / 2 ∧
      |((clampRound H W b).y0 : K) - clamp 0 (H : K) b.y0| ≤ 1 / 2 ∧ |((clampRound H W b).y1 : K) - clamp 0 (H : K) b.y1| ≤ 1 / 2 := by
  have r0 : ∀ {t : K}, 0 ≤ t → 0 ≤ rint t := fun h => by
    have := rint_mono h
    have e := rint_int (K := K) 0
    rw [Int.cast_zero] at e
    rwa [e] at this
  have rn : ∀ {t : K} {n : Nat}, t ≤ n → rint t ≤ n := fun {t n} h => by
    have := rint_mono h
    have e := rint_int (K := K) n
    rw [Int.cast_natCast] at e
    rwa [e] at this
  refine ⟨r0 (clamp_range (Nat.cast_nonneg _)).1, rint_mono (clamp_mono hx), rn (clamp_range (Nat.cast_nonneg _)).2,
    r0 (clamp_range (Nat.cast_nonneg _)).1, rint_mono (clamp_mono hy), rn (clamp_range (Nat.cast_nonneg _)).2,
    rint_bound _, rint_bound _, rint_bound _, rint_bound _⟩

/-- A box given by its corners keeps the first corner, has sides of at least the least size, contains the given box and is the given box if its
sides are that large; it is the smallest such box. -/
theorem toXYXY_spec (m : K) (b : XYWH K) :
    (toXYXY m b).x0 = b.x ∧ (toXYXY m b).y0 = b.y ∧
      (∀ t, (toXYXY m b).x1 ≤ t ↔ b.x + b.w ≤ t ∧ b.x + m ≤ t) ∧ (∀ t, (toXYXY m b).y1 ≤ t ↔ b.y + b.h ≤ t ∧ b.y + m ≤ t) := by
  refine ⟨rfl, rfl, fun t => ?_, fun t => ?_⟩ <;> simp only [toXYXY, ← max_add_add_left, max_le_iff]

example : toXYXY (2 : ℚ) ⟨3, 4, 1, 5⟩ = ⟨3, 4, 5, 9⟩ := by norm_num [toXYXY]

theorem clampBbox_spec {c : K} {b : XYWH K} {r : XYXY K} (h : clampBbox c b = .ok r) :
    1 < (expand c b).w ∧ 1 < (expand c b).h ∧ r.x0 = (expand c b).x ∧ r.y0 = (expand c b).y ∧ r.x1 = (expand c b).x + max (expand c b).w 2 ∧
      r.y1 = (expand c b).y + max (expand c b).h 2 := by
  unfold clampBbox at h
  dsimp only at h
  by_cases hs : (expand c b).w ≤ 1 ∨ (expand c b).h ≤ 1
  · rw [if_pos hs] at h; exact absurd h (by simp)
  rw [if_neg hs] at h
  push Not at hs
  simp only [Except.ok.injEq] at h
  subst h
  exact ⟨hs.1, hs.2, rfl, rfl, by simp [toXYXY], by simp [toXYXY]⟩

/-- A box with a side of at most one pixel after the expansion is refused. -/
theorem clampBbox_squashed {c : K} {b : XYWH K} (h : (expand c b).w ≤ 1 ∨ (expand c b).h ≤ 1) : clampBbox c b = .error .value := by
  unfold clampBbox
  dsimp only
  rw [if_pos h]

/-- A box of whole pixels inside the image, two or more in each direction, is used as it is. -/
theorem clampRound_exact {H W : Nat} {x y w h : Nat} (hw : 2 ≤ w) (hh : 2 ≤ h) (hx : x + w ≤ W) (hy : y + h ≤ H) :
    ∃ r, clampBbox (0 : K) ⟨x, y, w, h⟩ = .ok r ∧ clampRound H W r = ⟨x, y, x + w, y + h⟩ := by
  have hw' : (2 : K) ≤ w := by exact_mod_cast hw
  have hh' : (2 : K) ≤ h := by exact_mod_cast hh
  have e1 : clampBbox (0 : K) ⟨x, y, w, h⟩ = .ok ⟨x, y, (x : K) + w, (y : K) + h⟩ := by
    unfold clampBbox expand
    simp only [lt_irrefl, if_false]
    rw [if_neg (by push Not; constructor <;> linarith)]
    simp [toXYXY, max_eq_left hw', max_eq_left hh']
  refine ⟨_, e1, ?_⟩
  have hxW : (x : K) + w ≤ W := by exact_mod_cast hx
  have hyH : (y : K) + h ≤ H := by exact_mod_cast hy
  have hx0 : (0 : K) ≤ x := Nat.cast_nonneg _
  have hy0 : (0 : K) ≤ y := Nat.cast_nonneg _
  unfold clampRound
  rw [clamp_id hx0 (by linarith), clamp_id hy0 (by linarith), clamp_id (by linarith) hxW, clamp_id (by linarith) hyH]
  have q1 : rint (x : K) = x := by have := rint_int (K := K) x; rwa [Int.cast_natCast] at this
  have q2 : rint (y : K) = y := by have := rint_int (K := K) y; rwa [Int.cast_natCast] at this
  have q3 : rint ((x : K) + w) = x + w := by have := rint_int (K := K) (x + w); push_cast at this; exact this
  have q4 : rint ((y : K) + h) = y + h := by have := rint_int (K := K) (y + h); push_cast at this; exact this
  rw [q1, q2, q3, q4]

/-! ### Cropping -/

/-- Where a camera shows the direction `u` (the quotients x/z and y/z) in an image of width `w` and height `h`: the screen coordinates of
PyTorch3D's NDC, in pixels from the top left corner. -/
def pixel (w h : K) (c : Cam K) (u : K × K) : K × K :=
  (w / 2 - (c.f.1 * u.1 + c.p.1) * (min w h / 2), h / 2 - (c.f.2 * u.2 + c.p.2) * (min w h / 2))

theorem min_half (w h : K) : min (w / 2) (h / 2) = min w h / 2 := by
  rcases le_total w h with h1 | h1
  · rw [min_eq_left h1, min_eq_left (by linarith)]
  · rw [min_eq_right h1, min_eq_right (by linarith)]

theorem toPixels_pixel (w h : K) (c : Cam K) (u : K × K) :
    pixel w h c u = ((toPixels w h c).p.1 - (toPixels w h c).f.1 * u.1, (toPixels w h c).p.2 - (toPixels w h c).f.2 * u.2) := by
  unfold pixel toPixels
  dsimp only
  rw [min_half]
  refine Prod.ext ?_ ?_ <;> dsimp only <;> ring

theorem toNdc_pixel {w h : K} (hw : 0 < w) (hh : 0 < h) (c : Cam K) (u : K × K) :
    pixel w h (toNdc w h c) u = (c.p.1 - c.f.1 * u.1, c.p.2 - c.f.2 * u.2) := by
  have hm : 0 < min w h := lt_min hw hh
  unfold pixel toNdc
  dsimp only
  rw [min_half]
  generalize min w h = m at *
  have : m ≠ 0 := hm.ne'
  refine Prod.ext ?_ ?_ <;> dsimp only <;> field_simp <;> ring

/-- NDC and pixel parameters are inverse to each other. -/
theorem ndc_pixels {w h : K} (hw : 0 < w) (hh : 0 < h) (c : Cam K) : toNdc w h (toPixels w h c) = c ∧ toPixels w h (toNdc w h c) = c := by
  have hm : 0 < min (w / 2) (h / 2) := lt_min (by linarith) (by linarith)
  unfold toNdc toPixels
  dsimp only
  generalize min (w / 2) (h / 2) = m at *
  have : m ≠ 0 := hm.ne'
  obtain ⟨⟨a, b⟩, p, q⟩ := c
  constructor <;> simp <;> field_simp <;> simp

/-- The camera of a cropped image shows every point where the old one did, relative to the corner of the box. -/
theorem camCrop_pixel {w h : K} {b : XYWH K} (hw : 0 < b.w) (hh : 0 < b.h) (c : Cam K) (u : K × K) :
    pixel b.w b.h (camCrop w h b c) u = ((pixel w h c u).1 - b.x, (pixel w h c u).2 - b.y) := by
  unfold camCrop
  dsimp only
  rw [toNdc_pixel hw hh, toPixels_pixel]
  refine Prod.ext ?_ ?_ <;> dsimp only <;> ring

/-- The camera of a resized image shows every point at the scaled place. -/
theorem camScale_pixel {w h w' h' : K} (hw : 0 < w') (hh : 0 < h') (c : Cam K) (u : K × K) :
    pixel w' h' (camScale w h w' h' c) u = (minScale w h w' h' * (pixel w h c u).1, minScale w h w' h' * (pixel w h c u).2) := by
  unfold camScale
  dsimp only
  rw [toNdc_pixel hw hh, toPixels_pixel]
  refine Prod.ext ?_ ?_ <;> dsimp only <;> ring

/-- The legacy format, in which both coordinates range over [-1, 1]. -/
theorem camLegacy_pixel {w h : K} (hw : 0 < w) (hh : 0 < h) (c : Cam K) (u : K × K) :
    pixel w h (camLegacy w h c) u = (w / 2 - (c.f.1 * u.1 + c.p.1) * (w / 2), h / 2 - (c.f.2 * u.2 + c.p.2) * (h / 2)) := by
  have hm : 0 < min w h := lt_min hw hh
  unfold pixel camLegacy
  dsimp only
  generalize min w h = m at *
  have : m ≠ 0 := hm.ne'
  refine Prod.ext ?_ ?_ <;> dsimp only <;> field_simp

theorem clampI_id {hi : Nat} {t : Int} (h0 : 0 ≤ t) (h1 : t ≤ hi) : (clampI hi t : Int) = t := by
  unfold clampI
  omega

/-- Cropping by a box inside the image. -/
theorem cropImg_spec {α : Type} {b : XYXY Int} {im : Img α} (hx0 : 0 ≤ b.x0) (hx1 : b.x1 ≤ im.w) (hy0 : 0 ≤ b.y0) (hy1 : b.y1 ≤ im.h)
    (hx : b.x0 ≤ b.x1) (hy : b.y0 ≤ b.y1) :
    cropImg b im = if b.x0 < b.x1 ∧ b.y0 < b.y1 then
      .ok ⟨(b.y1 - b.y0).toNat, (b.x1 - b.x0).toNat, fun i j => im.at' (i + b.y0.toNat) (j + b.x0.toNat)⟩ else .error .assertion := by
  have e1 : clampI im.w b.x0 = b.x0.toNat := by unfold clampI; omega
  have e2 : clampI im.h b.y0 = b.y0.toNat := by unfold clampI; omega
  have e3 : clampI im.w b.x1 = b.x1.toNat := by unfold clampI; omega
  have e4 : clampI im.h b.y1 = b.y1.toNat := by unfold clampI; omega
  unfold cropImg
  dsimp only
  rw [e1, e2, e3, e4]
  by_cases h : b.x0 < b.x1 ∧ b.y0 < b.y1
  · rw [if_pos h, if_pos (by omega)]
    congr 2 <;> omega
  · rw [if_neg h, if_neg (by omega)]

/-- Everything about a successful crop: the box, the sizes, every pixel of image and foreground, and the camera. -/
theorem crop_spec {α : Type} {c : K} {b : XYWH K} {F F' : Frame K α} {H W : Nat} (hs : F.size = some (H, W)) (h : cropBy c b F = .ok F') :
    ∃ bb : XYXY Int, bb = clampRound H W ⟨(expand c b).x, (expand c b).y, (expand c b).x + max (expand c b).w 2, (expand c b).y + max (expand c b).h 2⟩ ∧
      1 < (expand c b).w ∧ 1 < (expand c b).h ∧
      0 ≤ bb.x0 ∧ bb.x0 ≤ bb.x1 ∧ bb.x1 ≤ W ∧ 0 ≤ bb.y0 ∧ bb.y0 ≤ bb.y1 ∧ bb.y1 ≤ H ∧
      F'.size = some ((bb.y1 - bb.y0).toNat, (bb.x1 - bb.x0).toNat) ∧ F'.crop = some (toXYWH bb) ∧ F'.uncropped = false ∧
      (∀ im, F.rgb = some im → im.h = H → im.w = W → bb.x0 < bb.x1 ∧ bb.y0 < bb.y1 ∧
        F'.rgb = some ⟨(bb.y1 - bb.y0).toNat, (bb.x1 - bb.x0).toNat, fun i j => im.at' (i + bb.y0.toNat) (j + bb.x0.toNat)⟩) ∧
      (∀ im, F.fg = some im → im.h = H → im.w = W → bb.x0 < bb.x1 ∧ bb.y0 < bb.y1 ∧
        F'.fg = some ⟨(bb.y1 - bb.y0).toNat, (bb.x1 - bb.x0).toNat, fun i j => im.at' (i + bb.y0.toNat) (j + bb.x0.toNat)⟩) ∧
      (∀ cam, F.cam = some cam → bb.x0 < bb.x1 → bb.y0 < bb.y1 → ∃ cam', F'.cam = some cam' ∧ ∀ u,
        pixel ((bb.x1 - bb.x0 : Int) : K) ((bb.y1 - bb.y0 : Int) : K) cam' u = ((pixel (W : K) (H : K) cam u).1 - (bb.x0 : K), (pixel (W : K) (H : K) cam u).2 - (bb.y0 : K))) := by
  unfold cropBy at h
  rw [hs] at h
  dsimp only at h
  rcases hc : clampBbox c b with e | r
  · rw [hc] at h; exact absurd h (by simp)
  rw [hc] at h
  dsimp only at h
  obtain ⟨q1, q2, q3, q4, q5, q6⟩ := clampBbox_spec hc
  have er : r = ⟨(expand c b).x, (expand c b).y, (expand c b).x + max (expand c b).w 2, (expand c b).y + max (expand c b).h 2⟩ := by
    rcases r with ⟨_, _, _, _⟩
    simp only at q3 q4 q5 q6
    rw [q3, q4, q5, q6]
  obtain ⟨s1, s2, s3, s4, s5, s6, _⟩ := clampRound_spec H W (b := r)
    (by rw [q3, q5]; have := le_max_right (expand c b).w 2; linarith)
    (by rw [q4, q6]; have := le_max_right (expand c b).h 2; linarith)
  rw [← er]
  refine ⟨clampRound H W r, rfl, q1, q2, ?_⟩
  generalize clampRound H W r = bb at *
  rcases hfg : cropOpt bb F.fg with e | fg
  · rw [hfg] at h; exact absurd h (by simp)
  rw [hfg] at h
  dsimp only at h
  rcases hrgb : cropOpt bb F.rgb with e | rgb
  · rw [hrgb] at h; exact absurd h (by simp)
  rw [hrgb] at h
  dsimp only at h
  rcases hd : cropDepth K (H, W) bb F.depth with e | depth
  · rw [hd] at h; exact absurd h (by simp)
  rw [hd] at h
  simp only [Except.ok.injEq] at h
  subst h
  have himg : ∀ (o o' : Option (Img α)), cropOpt bb o = .ok o' → ∀ im, o = some im → im.h = H → im.w = W → bb.x0 < bb.x1 ∧ bb.y0 < bb.y1 ∧
      o' = some ⟨(bb.y1 - bb.y0).toNat, (bb.x1 - bb.x0).toNat, fun i j => im.at' (i + bb.y0.toNat) (j + bb.x0.toNat)⟩ := by
    intro o o' ho im hom h1 h2
    subst hom
    rw [cropOpt, cropImg_spec s1 (by omega) s4 (by omega) s2 s5] at ho
    by_cases hlt : bb.x0 < bb.x1 ∧ bb.y0 < bb.y1
    · rw [if_pos hlt] at ho
      simp only [Except.ok.injEq] at ho
      exact ⟨hlt.1, hlt.2, ho.symm⟩
    · rw [if_neg hlt] at ho
      exact absurd ho (by simp)
  refine ⟨s1, s2, s3, s4, s5, s6, rfl, rfl, rfl, fun im => himg _ _ hrgb im, fun im => himg _ _ hfg im, ?_⟩
  intro cam hcam hx hy
  refine ⟨camCrop (W : K) (H : K) (intBox (toXYWH bb)) cam, by simp [hcam], ?_⟩
  intro u
  have := camCrop_pixel (w := (W : K)) (h := (H : K)) (b := intBox (toXYWH bb))
    (by simp only [intBox, toXYWH, Int.cast_pos]; omega) (by simp only [intBox, toXYWH, Int.cast_pos]; omega) cam u
  exact this

/-- A crop succeeds if the expanded box is longer than one pixel and overlaps the image by more than one pixel in each direction. -/
theorem crop_ok {α : Type} {c : K} {b : XYWH K} {F : Frame K α} {H W : Nat} (hs : F.size = some (H, W)) (hd : F.depth = none)
    (h1 : ∀ im, F.rgb = some im → im.h = H ∧ im.w = W) (h2 : ∀ im, F.fg = some im → im.h = H ∧ im.w = W)
    (hw : 1 < (expand c b).w) (hh : 1 < (expand c b).h)
    (hx : 1 < clamp 0 (W : K) ((expand c b).x + (expand c b).w) - clamp 0 (W : K) (expand c b).x)
    (hy : 1 < clamp 0 (H : K) ((expand c b).y + (expand c b).h) - clamp 0 (H : K) (expand c b).y) : ∃ F', cropBy c b F = .ok F' := by
  unfold cropBy
  rw [hs]
  dsimp only
  have hc : clampBbox c b = .ok ⟨(expand c b).x, (expand c b).y, (expand c b).x + max (expand c b).w 2, (expand c b).y + max (expand c b).h 2⟩ := by
    unfold clampBbox
    dsimp only
    rw [if_neg (by push Not; exact ⟨hw, hh⟩)]
    simp [toXYXY]
  rw [hc]
  dsimp only
  generalize hr : (⟨(expand c b).x, (expand c b).y, (expand c b).x + max (expand c b).w 2, (expand c b).y + max (expand c b).h 2⟩ : XYXY K) = r
  have e1 : r.x0 = (expand c b).x := by rw [← hr]
  have e2 : r.y0 = (expand c b).y := by rw [← hr]
  have e3 : r.x1 = (expand c b).x + max (expand c b).w 2 := by rw [← hr]
  have e4 : r.y1 = (expand c b).y + max (expand c b).h 2 := by rw [← hr]
  have hlx : (clampRound H W r).x0 < (clampRound H W r).x1 := by
    apply rint_lt
    rw [e1, e3]
    have := clamp_mono (lo := 0) (hi := (W : K)) (show (expand c b).x + (expand c b).w ≤ (expand c b).x + max (expand c b).w 2 by
      have := le_max_left (expand c b).w 2; linarith)
    linarith
  have hly : (clampRound H W r).y0 < (clampRound H W r).y1 := by
    apply rint_lt
    rw [e2, e4]
    have := clamp_mono (lo := 0) (hi := (H : K)) (show (expand c b).y + (expand c b).h ≤ (expand c b).y + max (expand c b).h 2 by
      have := le_max_left (expand c b).h 2; linarith)
    linarith
  obtain ⟨s1, s2, s3, s4, s5, s6, _⟩ := clampRound_spec H W (b := r)
    (by rw [e1, e3]; have := le_max_right (expand c b).w 2; linarith)
    (by rw [e2, e4]; have := le_max_right (expand c b).h 2; linarith)
  generalize clampRound H W r = bb at *
  have himg : ∀ o : Option (Img α), (∀ im, o = some im → im.h = H ∧ im.w = W) → ∃ o', cropOpt bb o = .ok o' := by
    intro o ho
    rcases o with _ | im
    · exact ⟨none, rfl⟩
    · obtain ⟨a1, a2⟩ := ho im rfl
      rw [cropOpt, cropImg_spec s1 (by omega) s4 (by omega) s2 s5, if_pos ⟨hlx, hly⟩]
      exact ⟨_, rfl⟩
  obtain ⟨fg, hfg⟩ := himg F.fg h2
  obtain ⟨rgb, hrgb⟩ := himg F.rgb h1
  rw [hfg]
  dsimp only
  rw [hrgb]
  dsimp only
  rw [hd]
  exact ⟨_, rfl⟩

/-- The box of the metadata can be used once. -/
theorem crop_metadata_once {α : Type} {c c' : K} {b : XYWH K} {F F' : Frame K α} (h : cropBy c b F = .ok F') : cropByMetadata c' F' = .error .value := by
  have hu : F'.uncropped = false := by
    rcases hs : F.size with _ | ⟨H, W⟩
    · unfold cropBy at h
      rw [hs] at h
      exact absurd h (by simp)
    · obtain ⟨bb, _, _, _, _, _, _, _, _, _, _, _, hu, _⟩ := crop_spec hs h
      exact hu
  unfold cropByMetadata
  rcases F'.bbox with _ | b'
  · rfl
  · dsimp only
    rw [hu]
    rfl

/-! ### Depth maps -/

theorem trunc_int (n : Int) : trunc (n : K) = n := by
  unfold trunc
  split_ifs <;> simp

/-- A depth map of the size of the image is cropped like the image. -/
theorem cropDepth_same {α : Type} {H W : Nat} (hH : 0 < H) (hW : 0 < W) (b : XYXY Int) (im : Img α) (h : im.h = H) (w : im.w = W) :
    cropDepth K (H, W) b (some im) = cropOpt b (some im) := by
  unfold cropDepth cropOpt
  have hr : rescale (K := K) (im.h, im.w) (H, W) b = b := by
    have h1 : (H : K) ≠ 0 := by exact_mod_cast hH.ne'
    have h2 : (W : K) ≠ 0 := by exact_mod_cast hW.ne'
    unfold rescale
    dsimp only
    rw [h, w, div_self h1, div_self h2]
    have : ((1 : K) + 1) / 2 = 1 := by norm_num
    rw [this]
    simp only [mul_one, trunc_int]
  dsimp only
  rw [hr]

/-- For an image `m` times as large as the depth map the box is multiplied by `m` (not divided). -/
theorem rescale_wrong {h w m : Nat} (hh : 0 < h) (hw : 0 < w) (b : XYXY Int) :
    rescale (K := K) (h, w) (m * h, m * w) b = ⟨m * b.x0, m * b.y0, m * b.x1, m * b.y1⟩ := by
  have h1 : (h : K) ≠ 0 := by exact_mod_cast hh.ne'
  have h2 : (w : K) ≠ 0 := by exact_mod_cast hw.ne'
  unfold rescale
  dsimp only
  have e : (((m * h : Nat) : K) / h + ((m * w : Nat) : K) / w) / 2 = m := by
    push_cast
    field_simp
    ring
  rw [e]
  have key : ∀ n : Int, trunc ((n : K) * (m : K)) = m * n := by
    intro n
    have := trunc_int (K := K) (m * n)
    push_cast at this
    rw [mul_comm]; exact this
  rw [key, key, key, key]

/-- A box in the right part of the image therefore fails although it lies in the image. -/
theorem cropDepth_fails {α : Type} {m : Nat} {b : XYXY Int} {im : Img α} (hh : 0 < im.h) (hw : 0 < im.w) (hb : b.x0 ≤ b.x1)
    (hx : (im.w : Int) ≤ m * b.x0) : cropDepth K (m * im.h, m * im.w) b (some im) = .error .assertion := by
  unfold cropDepth
  dsimp only
  rw [rescale_wrong hh hw]
  have hle : (m : Int) * b.x0 ≤ m * b.x1 := mul_le_mul_of_nonneg_left hb (by positivity)
  have : cropImg (⟨m * b.x0, m * b.y0, m * b.x1, m * b.y1⟩ : XYXY Int) im = .error .assertion := by
    unfold cropImg
    dsimp only
    rw [if_neg]
    rintro ⟨_, h2⟩
    unfold clampI at h2
    omega
  rw [this]

/-! ### Resizing -/

theorem minScale_le {w h w' h' : K} : minScale w h w' h' ≤ w' / w ∧ minScale w h w' h' ≤ h' / h := ⟨min_le_left _ _, min_le_right _ _⟩

/-- The resized image fits; one of its sides is exactly the wanted one, the other the scaled one rounded down. -/
theorem outSize_spec {h w h' w' : Nat} (hh : 0 < h) (hw : 0 < w) :
    (outSize K h w h' w').1 ≤ h' ∧ (outSize K h w h' w').2 ≤ w' ∧ ((outSize K h w h' w').1 = h' ∨ (outSize K h w h' w').2 = w') ∧
      ((outSize K h w h' w').1 : K) ≤ h * minScale (w : K) h w' h' ∧ (h : K) * minScale (w : K) h w' h' < (outSize K h w h' w').1 + 1 ∧
      ((outSize K h w h' w').2 : K) ≤ w * minScale (w : K) h w' h' ∧ (w : K) * minScale (w : K) h w' h' < (outSize K h w h' w').2 + 1 := by
  have hhK : (0 : K) < h := by exact_mod_cast hh
  have hwK : (0 : K) < w := by exact_mod_cast hw
  have hs0 : 0 ≤ minScale (w : K) h w' h' := le_min (by positivity) (by positivity)
  have ms := minScale_le (w := (w : K)) (h := h) (w' := w') (h' := h')
  have msc : minScale (w : K) h w' h' = (w' : K) / w ∨ minScale (w : K) h w' h' = (h' : K) / h := min_choice _ _
  unfold outSize
  dsimp only
  generalize minScale (w : K) h w' h' = s at *
  have toN : ∀ {a : K}, 0 ≤ a → ((⌊a⌋.toNat : Nat) : K) = (⌊a⌋ : K) := fun {a} h => by
    have : ((⌊a⌋.toNat : Nat) : Int) = ⌊a⌋ := Int.toNat_of_nonneg (Int.floor_nonneg.2 h)
    exact_mod_cast congrArg (Int.cast (R := K)) this
  have a1 : (0 : K) ≤ h * s := by positivity
  have a2 : (0 : K) ≤ w * s := by positivity
  have b1 : (h : K) * s ≤ h' := by have := mul_le_mul_of_nonneg_left ms.2 hhK.le; rwa [mul_div_cancel₀ _ hhK.ne'] at this
  have b2 : (w : K) * s ≤ w' := by have := mul_le_mul_of_nonneg_left ms.1 hwK.le; rwa [mul_div_cancel₀ _ hwK.ne'] at this
  have f1 := Int.floor_le ((h : K) * s)
  have f2 := Int.lt_floor_add_one ((h : K) * s)
  have f3 := Int.floor_le ((w : K) * s)
  have f4 := Int.lt_floor_add_one ((w : K) * s)
  refine ⟨?_, ?_, ?_, by rw [toN a1]; exact f1, by rw [toN a1]; exact f2, by rw [toN a2]; exact f3, by rw [toN a2]; exact f4⟩
  · have : ((⌊(h : K) * s⌋.toNat : Nat) : K) ≤ h' := by rw [toN a1]; linarith
    exact_mod_cast this
  · have : ((⌊(w : K) * s⌋.toNat : Nat) : K) ≤ w' := by rw [toN a2]; linarith
    exact_mod_cast this
  · rcases msc with e | e
    · right
      rw [e, mul_div_cancel₀ _ hwK.ne']
      simp
    · left
      rw [e, mul_div_cancel₀ _ hhK.ne']
      simp

/-- The pixels of the resized image and the resized camera differ by less than one pixel: a row at `y` moves to `y * out / h`, the camera
assumes `y * s`. -/
theorem resize_camera_error {h w h' w' : Nat} (hh : 0 < h) (hw : 0 < w) {y : K} (h0 : 0 ≤ y) (h1 : y ≤ h) :
    y * ((outSize K h w h' w').1 / h) ≤ y * minScale (w : K) h w' h' ∧
      y * minScale (w : K) h w' h' < y * ((outSize K h w h' w').1 / h) + 1 := by
  obtain ⟨_, _, _, a1, a2, _, _⟩ := outSize_spec (K := K) (h' := h') (w' := w') hh hw
  have hhK : (0 : K) < h := by exact_mod_cast hh
  generalize ((outSize K h w h' w').1 : K) = o at *
  generalize minScale (w : K) h w' h' = s at *
  have e : y * (o / h) = y / h * o := by ring
  have e2 : y * s = y / h * (h * s) := by field_simp
  have t0 : 0 ≤ y / h := by positivity
  have t1 : y / h ≤ 1 := by rw [div_le_one hhK]; exact h1
  rw [e, e2]
  constructor
  · exact mul_le_mul_of_nonneg_left a1 t0
  · nlinarith

/-- The same for columns. -/
theorem resize_camera_error_x {h w h' w' : Nat} (hh : 0 < h) (hw : 0 < w) {x : K} (h0 : 0 ≤ x) (h1 : x ≤ w) :
    x * ((outSize K h w h' w').2 / w) ≤ x * minScale (w : K) h w' h' ∧
      x * minScale (w : K) h w' h' < x * ((outSize K h w h' w').2 / w) + 1 := by
  obtain ⟨_, _, _, _, _, a1, a2⟩ := outSize_spec (K := K) (h' := h') (w' := w') hh hw
  have hwK : (0 : K) < w := by exact_mod_cast hw
  generalize ((outSize K h w h' w').2 : K) = o at *
  generalize minScale (w : K) h w' h' = s at *
  have e : x * (o / w) = x / w * o := by ring
  have e2 : x * s = x / w * (w * s) := by field_simp
  have t0 : 0 ≤ x / w := by positivity
  have t1 : x / w ≤ 1 := by rw [div_le_one hwK]; exact h1
  rw [e, e2]
  constructor
  · exact mul_le_mul_of_nonneg_left a1 t0
  · nlinarith

/-- Interpolation of mode nearest reads a pixel of the image that the new pixel covers. -/
theorem nearest_spec {n out i : Nat} (hn : 0 < n) (hi : i < out) :
    nearestIdx K n out i < n ∧ ((nearestIdx K n out i : Nat) : K) ≤ i * ((n : K) / out) ∧ (i : K) * ((n : K) / out) < nearestIdx K n out i + 1 := by
  have hoK : (0 : K) < out := by exact_mod_cast (by omega : 0 < out)
  have hnK : (0 : K) < n := by exact_mod_cast hn
  have hiK : (i : K) < out := by exact_mod_cast hi
  have a0 : (0 : K) ≤ i * ((n : K) / out) := by positivity
  have hlt : (i : K) * ((n : K) / out) < n := by
    rw [mul_div_assoc', div_lt_iff₀ hoK]
    nlinarith
  have toN : ((⌊(i : K) * ((n : K) / out)⌋.toNat : Nat) : K) = (⌊(i : K) * ((n : K) / out)⌋ : K) := by
    have : ((⌊(i : K) * ((n : K) / out)⌋.toNat : Nat) : Int) = ⌊(i : K) * ((n : K) / out)⌋ := Int.toNat_of_nonneg (Int.floor_nonneg.2 a0)
    exact_mod_cast congrArg (Int.cast (R := K)) this
  have f1 := Int.floor_le ((i : K) * ((n : K) / out))
  have f2 := Int.lt_floor_add_one ((i : K) * ((n : K) / out))
  have hm : nearestIdx K n out i = ⌊(i : K) * ((n : K) / out)⌋.toNat := by
    unfold nearestIdx
    have : ((⌊(i : K) * ((n : K) / out)⌋.toNat : Nat) : K) < n := by rw [toN]; linarith
    have : ⌊(i : K) * ((n : K) / out)⌋.toNat < n := by exact_mod_cast this
    omega
  rw [hm, toN]
  refine ⟨?_, f1, f2⟩
  have : ((⌊(i : K) * ((n : K) / out)⌋.toNat : Nat) : K) < n := by rw [toN]; linarith
  exact_mod_cast this

/-- Resizing: the result has the wanted size; the image is in the top left corner, which the mask marks, and the rest is zero; every pixel comes
from the image. It fails exactly if one side would vanish. -/
theorem resize_spec {α : Type} [Zero α] {im : Img α} {h' w' : Nat} (hh : 0 < im.h) (hw : 0 < im.w) :
    (resizeNearest K h' w' im = .error .runtime ↔ (outSize K im.h im.w h' w').1 = 0 ∨ (outSize K im.h im.w h' w').2 = 0) ∧
    ∀ r m, resizeNearest K h' w' im = .ok (r, m) → r.h = h' ∧ r.w = w' ∧ m.h = h' ∧ m.w = w' ∧
      (∀ i j, m.at' i j = true ↔ i < (outSize K im.h im.w h' w').1 ∧ j < (outSize K im.h im.w h' w').2) ∧
      (∀ i j, m.at' i j = false → r.at' i j = 0) ∧
      ∀ i j, m.at' i j = true → ∃ a < im.h, ∃ b < im.w, r.at' i j = im.at' a b ∧
        (a : K) ≤ i * ((im.h : K) / (outSize K im.h im.w h' w').1) ∧ (i : K) * ((im.h : K) / (outSize K im.h im.w h' w').1) < a + 1 ∧
        (b : K) ≤ j * ((im.w : K) / (outSize K im.h im.w h' w').2) ∧ (j : K) * ((im.w : K) / (outSize K im.h im.w h' w').2) < b + 1 := by
  unfold resizeNearest
  rw [if_neg (by omega)]
  dsimp only
  by_cases h0 : (outSize K im.h im.w h' w').1 = 0 ∨ (outSize K im.h im.w h' w').2 = 0
  · rw [if_pos h0]
    exact ⟨⟨fun _ => h0, fun _ => rfl⟩, fun r m h => absurd h (by simp)⟩
  · rw [if_neg h0]
    refine ⟨⟨fun h => absurd h (by simp), fun h => absurd h h0⟩, ?_⟩
    intro r m h
    simp only [Except.ok.injEq, Prod.mk.injEq] at h
    obtain ⟨rfl, rfl⟩ := h
    refine ⟨rfl, rfl, rfl, rfl, fun i j => by simp, ?_, ?_⟩
    · intro i j hf
      simp only [decide_eq_false_iff_not] at hf
      simp only
      rw [if_neg hf]
    · intro i j ht
      simp only [decide_eq_true_eq] at ht
      obtain ⟨n1, n2, n3⟩ := nearest_spec (K := K) hh ht.1
      obtain ⟨m1, m2, m3⟩ := nearest_spec (K := K) hw ht.2
      refine ⟨_, n1, _, m1, ?_, n2, n3, m2, m3⟩
      simp only
      rw [if_pos ht]

/-! ### Examples -/

/-- A mask with three bright pixels. -/
def exMask : Nat → Nat → ℚ := fun y x => if (y, x) = (1, 2) then 1 else if (y, x) = (2, 2) then 3 / 10 else if (y, x) = (2, 4) then 1 / 10 else 0

example : bboxFromMask 20 4 6 exMask (4 / 10) (1 / 20) = some (2, 1, 1, 2) := by decide +kernel

example : clampBbox (0 : ℚ) ⟨2, 1, 1, 2⟩ = .error .value := clampBbox_squashed (Or.inl (by norm_num [expand]))

example : rint (5 / 2 : ℚ) = 2 ∧ rint (7 / 2 : ℚ) = 4 ∧ rint (-1 / 2 : ℚ) = 0 ∧ rint (8 / 3 : ℚ) = 3 := by decide +kernel

example : clampRound 10 20 (⟨-3, 5 / 2, 22, 19 / 2⟩ : XYXY ℚ) = ⟨0, 2, 20, 10⟩ := by decide +kernel

/-- A box expanded by one half. -/
example : expand (1 / 2 : ℚ) ⟨4, 4, 8, 4⟩ = ⟨2, 3, 12, 6⟩ := by decide +kernel

/-- The camera of the left half of an image. -/
example : camCrop (8 : ℚ) 4 ⟨0, 0, 4, 4⟩ ⟨(2, 2), (0, 0)⟩ = ⟨(2, 2), (-1, 0)⟩ := by decide +kernel

/-- The depth map of half the size: the box from 20 to 60 becomes 40 to 50 (of 50 pixels) instead of 10 to 30. -/
example : rescale (K := ℚ) (50, 50) (100, 100) ⟨20, 20, 60, 60⟩ = ⟨40, 40, 120, 120⟩ ∧
    (match cropDepth ℚ (100, 100) ⟨20, 20, 60, 60⟩ (some (⟨50, 50, fun i j => i * 100 + j⟩ : Img Nat)) with
      | .ok (some im) => some (im.h, im.w, im.at' 0 0)
      | _ => none) = some (10, 10, 4040) := by decide +kernel

example : outSize ℚ 30 40 20 20 = (15, 20) ∧ outSize ℚ 31 40 20 20 = (15, 20) ∧ nearestIdx ℚ 31 15 14 = 28 := by decide +kernel

end P3D.FrameCrop
