/-
`implicitron/tools/metric_utils.py`: depth error with best scale, PSNR, cross entropies, IoU and other losses.  An image is the list
of its pixels (after the crop, which is not modelled); batch elements are separate lists.  Empty tensors (means of nothing) and
divisions by zero of `use_disparity` are not modelled.
-/
import Mathlib.Analysis.SpecialFunctions.Log.Base
import Mathlib.Analysis.SpecialFunctions.Log.Deriv
import Mathlib.Analysis.SpecialFunctions.Sigmoid
import Mathlib.Analysis.SpecialFunctions.Sqrt
import Mathlib.Tactic.Linarith
import Mathlib.Tactic.Ring
import Mathlib.Tactic.FieldSimp
import Mathlib.Tactic.NormNum
import Mathlib.Tactic.LinearCombination
import Mathlib.Tactic.Positivity

set_option linter.unusedSectionVars false
set_option linter.unusedSimpArgs false
set_option linter.unusedVariables false

namespace P3D.Metrics

/-- A pixel: prediction, ground truth and mask. -/
structure Px where
  p : ℝ
  g : ℝ
  m : ℝ

/-! ### Model -/

/-- `gt * (mask > mask_thr)` (metric_utils.py:61-65). -/
noncomputable def maskGt (thr : ℝ) (x : Px) : Px := { x with g := x.g * if x.m > thr then 1 else 0 }

/-- `dmask` (metric_utils.py:67). -/
noncomputable def dmask (x : Px) : ℝ := if x.g > 0 then 1 else 0

/-- `estimate_depth_scale_factor` (metric_utils.py:94-98); `d` is the mask. -/
noncomputable def scaleFactor (clampThr : ℝ) (d : Px → ℝ) (l : List Px) : ℝ :=
  ((l.map fun x => x.p * x.g * d x).sum / l.length) / max ((l.map fun x => x.p * x.p * d x).sum / l.length) clampThr

/-- Errors of a prediction against `gt` under a mask (metric_utils.py:68, 85-89). -/
noncomputable def depthErr (d : Px → ℝ) (f : Px → ℝ) (l : List Px) : ℝ × ℝ :=
  ((l.map fun x => d x * f x ^ 2).sum / max (l.map d).sum (1 / 10000), (l.map fun x => d x * |f x|).sum / max (l.map d).sum (1 / 10000))

/-- `eval_depth` (metric_utils.py:19-91) without `use_disparity`. -/
noncomputable def evalDepth (best : Bool) (clampThr thr : ℝ) (l : List Px) : ℝ × ℝ :=
  let l := l.map (maskGt thr)
  let s := if best then scaleFactor clampThr dmask l else 1
  depthErr dmask (fun x => x.g - x.p * s) l

/-- `eval_depth` with `use_disparity` (metric_utils.py:76-82): the scale of the disparities is estimated in any case. -/
noncomputable def evalDisparity (best : Bool) (clampThr thr eps : ℝ) (l : List Px) : ℝ × ℝ :=
  let l := l.map (maskGt thr)
  let s := if best then scaleFactor clampThr dmask l else 1
  let q := l.map fun x => ({ p := 1 / (x.p * s + eps), g := 1 / (x.g + eps), m := dmask x } : Px)
  let s2 := scaleFactor clampThr (·.m) q
  depthErr (·.m) (fun x => x.g - x.p * s2) q

/-- `calc_mse` with a mask (metric_utils.py:125-127); without one all entries of `m` are one and the clamp is irrelevant. -/
noncomputable def mse (l : List Px) : ℝ := (l.map fun x => (x.p - x.g) ^ 2 * x.m).sum / max (l.map (·.m)).sum (1 / 100000)

/-- `calc_psnr` (metric_utils.py:101-111) from the mean squared error. -/
noncomputable def psnr (e : ℝ) : ℝ := Real.logb 10 (max e (1 / 10 ^ 10)) * (-10)

/-- `log_lerp` (metric_utils.py:193-198). -/
noncomputable def logLerp (b x : ℝ) : ℝ := if x ≥ b then Real.log x else Real.log b + (x - b) / b

/-- The loss of a pixel, as `binary_cross_entropy` has it. -/
noncomputable def bcePx (x : Px) : ℝ := -(x.g * Real.log x.p + (1 - x.g) * Real.log (1 - x.p))

/-- `mask_fg`, `mask_bg` (metric_utils.py:148-149). -/
noncomputable def fg (x : Px) : ℝ := (if x.g > 1 / 2 then 1 else 0) * x.m
noncomputable def bg (x : Px) : ℝ := (1 - fg x) * x.m

/-- The weights with `equal_w` before they are normalised (metric_utils.py:150). -/
noncomputable def rawW (l : List Px) (x : Px) : ℝ := fg x / max (l.map fg).sum 1 + bg x / max (l.map bg).sum 1

/-- The weights with `equal_w` (metric_utils.py:147-153). -/
noncomputable def equalW (l : List Px) (x : Px) : ℝ := rawW l x * (l.length / max (l.map (rawW l)).sum 1)

/-- `torch.clamp(pred, pred_eps, 1 - pred_eps)` (metric_utils.py:140-142). -/
noncomputable def clampP (eps p : ℝ) : ℝ := if eps > 0 then min (max p eps) (1 - eps) else p

/-- `calc_bce` (metric_utils.py:130-177) without `lerp_bound`, for probabilities and a loss `f` of a pixel. -/
noncomputable def calcBce (f : Px → ℝ) (equal : Bool) (eps : ℝ) (l : List Px) : ℝ :=
  let l := l.map fun x => { x with p := clampP eps x.p }
  (l.map fun x => (if equal then equalW l x else x.m) * f x).sum / l.length

/-- The loss of a pixel given as a logit (`binary_cross_entropy_with_logits`). -/
noncomputable def bceLogit (x : Px) : ℝ := bcePx { x with p := Real.sigmoid x.p }

/-- `binary_cross_entropy_lerp` (metric_utils.py:180-192); `m` is the weight. -/
noncomputable def bceLerp (b : ℝ) (l : List Px) : ℝ :=
  -((l.map fun x => (logLerp b (1 - x.p) * (1 - x.g) + logLerp b x.p * x.g) * x.m).sum) / max (l.map (·.m)).sum (1 / 10000)

/-- `rgb_l1` (metric_utils.py:201-213) of one image: channels of a pixel and its mask. -/
noncomputable def rgbL1 (l : List (List (ℝ × ℝ) × ℝ)) : ℝ :=
  (l.map fun x => (x.1.map fun c => |c.1 - c.2| * x.2).sum).sum / max (l.map (·.2)).sum 1

/-- `safe_sqrt` (metric_utils.py:239-243). -/
noncomputable def safeSqrt (eps a : ℝ) : ℝ := Real.sqrt (max a 0 + eps)

/-- `huber` (metric_utils.py:216-223). -/
noncomputable def huber (scaling dfsq : ℝ) : ℝ := (safeSqrt (1 / 10000) (1 + dfsq / (scaling * scaling)) - 1) * scaling

/-- `iou` (metric_utils.py:246-263) of one image. -/
noncomputable def iou (l : List Px) : ℝ :=
  (l.map fun x => (x.p * x.m) * (x.g * x.m)).sum /
    ((l.map fun x => x.p * x.m + x.g * x.m - (x.p * x.m) * (x.g * x.m)).sum + 1 / 10000)

/-- `beta_prior` (metric_utils.py:266-271). -/
noncomputable def betaPrior (cap : ℝ) (l : List ℝ) : ℝ :=
  (l.map fun p => Real.log (p + cap) + Real.log (1 - p + cap)).sum / l.length - (Real.log cap + Real.log (cap + 1))

/-! ### Sums -/

theorem sum_nonneg {α : Type} (l : List α) (f : α → ℝ) (h : ∀ a ∈ l, 0 ≤ f a) : 0 ≤ (l.map f).sum := by
  induction l with
  | nil => simp
  | cons a l ih =>
    rw [List.map_cons, List.sum_cons]
    have := h a (by simp)
    have := ih fun b hb => h b (by simp [hb])
    linarith

theorem sum_le {α : Type} (l : List α) (f g : α → ℝ) (h : ∀ a ∈ l, f a ≤ g a) : (l.map f).sum ≤ (l.map g).sum := by
  induction l with
  | nil => simp
  | cons a l ih =>
    rw [List.map_cons, List.sum_cons, List.map_cons, List.sum_cons]
    have := h a (by simp)
    have := ih fun b hb => h b (by simp [hb])
    linarith

theorem sum_pos_iff {α : Type} (l : List α) (f : α → ℝ) (h : ∀ a ∈ l, 0 ≤ f a) : 0 < (l.map f).sum ↔ ∃ a ∈ l, 0 < f a := by
  induction l with
  | nil => simp
  | cons a l ih =>
    rw [List.map_cons, List.sum_cons]
    have h1 := h a (by simp)
    have h2 := sum_nonneg l f fun b hb => h b (by simp [hb])
    have ih' := ih fun b hb => h b (by simp [hb])
    constructor
    · intro hp
      by_cases ha : 0 < f a
      · exact ⟨a, by simp, ha⟩
      · obtain ⟨b, hb, hb2⟩ := ih'.1 (by linarith)
        exact ⟨b, by simp [hb], hb2⟩
    · rintro ⟨b, hb, hb2⟩
      rcases List.mem_cons.1 hb with rfl | hb
      · linarith
      · have := ih'.2 ⟨b, hb, hb2⟩
        linarith

theorem sum_add {α : Type} (l : List α) (f g : α → ℝ) : (l.map fun a => f a + g a).sum = (l.map f).sum + (l.map g).sum := by
  induction l with
  | nil => simp
  | cons a l ih => simp only [List.map_cons, List.sum_cons, ih]; ring

theorem sum_mul {α : Type} (l : List α) (f : α → ℝ) (k : ℝ) : (l.map fun a => k * f a).sum = k * (l.map f).sum := by
  induction l with
  | nil => simp
  | cons a l ih => simp only [List.map_cons, List.sum_cons, ih]; ring

theorem sum_const {α : Type} (l : List α) (k : ℝ) : (l.map fun _ => k).sum = l.length * k := by
  induction l with
  | nil => simp
  | cons a l ih => simp only [List.map_cons, List.sum_cons, ih, List.length_cons]; push_cast; ring

theorem sum_congr {α : Type} (l : List α) (f g : α → ℝ) (h : ∀ a ∈ l, f a = g a) : (l.map f).sum = (l.map g).sum := by
  rw [List.map_congr_left h]

/-! ### Depth -/

/-- A pixel counts exactly if its depth is positive and its mask is above the threshold. -/
theorem valid_spec (thr : ℝ) (x : Px) : dmask (maskGt thr x) = if 0 < x.g ∧ thr < x.m then 1 else 0 := by
  unfold dmask maskGt
  by_cases h1 : x.m > thr <;> by_cases h2 : x.g > 0
  · simp [h1, h2]
  · simp [h1, h2]
  · simp [h1, h2]
  · simp [h1, h2]

/-- The best scale: if the mean square of the valid predictions is at least the clamp, no other factor gives a smaller mean squared error. -/
theorem scale_optimal {c : ℝ} {d : Px → ℝ} (hd : ∀ x, 0 ≤ d x) {l : List Px} (hc : 0 < c)
    (hx : c ≤ (l.map fun x => x.p * x.p * d x).sum / l.length) (s : ℝ) :
    (depthErr d (fun x => x.g - x.p * scaleFactor c d l) l).1 ≤ (depthErr d (fun x => x.g - x.p * s) l).1 := by
  have hl : (0 : ℝ) < l.length := by
    rcases l with _ | ⟨a, l⟩
    · simp at hx; linarith
    · simp; positivity
  have hm : (0 : ℝ) < max (l.map d).sum (1 / 10000) := lt_of_lt_of_le (by norm_num) (le_max_right _ _)
  simp only [depthErr]
  rw [div_le_div_iff_of_pos_right hm]
  have he : ∀ s, (l.map fun x => d x * (x.g - x.p * s) ^ 2).sum = (l.map fun x => d x * x.g ^ 2).sum
      + (-2 * s) * (l.map fun x => x.p * x.g * d x).sum + s ^ 2 * (l.map fun x => x.p * x.p * d x).sum := by
    intro s
    rw [← sum_mul, ← sum_mul, ← sum_add, ← sum_add]
    apply sum_congr
    intro x _
    ring
  have hX : 0 < (l.map fun x => x.p * x.p * d x).sum := by
    have := lt_of_lt_of_le hc hx
    rw [lt_div_iff₀ hl] at this
    linarith
  have hs : scaleFactor c d l * (l.map fun x => x.p * x.p * d x).sum = (l.map fun x => x.p * x.g * d x).sum := by
    rw [scaleFactor, max_eq_left hx]
    generalize (l.map fun x => x.p * x.p * d x).sum = X at *
    field_simp
  rw [he, he]
  generalize scaleFactor c d l = t at *
  generalize (l.map fun x => x.p * x.p * d x).sum = X at *
  rw [← hs]
  nlinarith [mul_nonneg hX.le (sq_nonneg (s - t))]

/-- Below the clamp the factor is too small: the error is the one of a shrunk prediction. -/
theorem scale_clamped {c : ℝ} {d : Px → ℝ} {l : List Px} (hx : (l.map fun x => x.p * x.p * d x).sum / l.length ≤ c) :
    scaleFactor c d l = ((l.map fun x => x.p * x.g * d x).sum / l.length) / c := by
  rw [scaleFactor, max_eq_right hx]

/-- With the best scale a rescaled prediction has the same errors, as long as neither is clamped. -/
theorem evalDepth_scale {c thr k : ℝ} {l : List Px} (hc : 0 < c) (hk : k ≠ 0)
    (h1 : c ≤ ((l.map (maskGt thr)).map fun x => x.p * x.p * dmask x).sum / l.length)
    (h2 : c ≤ k ^ 2 * (((l.map (maskGt thr)).map fun x => x.p * x.p * dmask x).sum / l.length)) :
    evalDepth true c thr (l.map fun x => { x with p := k * x.p }) = evalDepth true c thr l := by
  have hmap : (l.map fun x => ({ x with p := k * x.p } : Px)).map (maskGt thr) = (l.map (maskGt thr)).map fun x => { x with p := k * x.p } := by
    rw [List.map_map, List.map_map]
    rfl
  unfold evalDepth
  simp only [hmap, if_true]
  have hlen : (l.map (maskGt thr)).length = l.length := by simp
  rw [← hlen] at h1 h2
  generalize l.map (maskGt thr) = q at *
  have hl : (0 : ℝ) < q.length := by
    rcases q with _ | ⟨a, q⟩
    · simp at h1; linarith
    · simp; positivity
  have e1 : ((q.map fun x => ({ x with p := k * x.p } : Px)).map fun x => x.p * x.g * dmask x).sum = k * (q.map fun x => x.p * x.g * dmask x).sum := by
    rw [List.map_map, ← sum_mul]
    apply sum_congr
    intro x _
    simp only [Function.comp, dmask]
    ring
  have e2 : ((q.map fun x => ({ x with p := k * x.p } : Px)).map fun x => x.p * x.p * dmask x).sum = k ^ 2 * (q.map fun x => x.p * x.p * dmask x).sum := by
    rw [List.map_map, ← sum_mul]
    apply sum_congr
    intro x _
    simp only [Function.comp, dmask]
    ring
  have hX : (q.map fun x => x.p * x.p * dmask x).sum ≠ 0 := by
    intro h
    rw [h] at h1
    simp at h1
    linarith
  have hs : k * scaleFactor c dmask (q.map fun x => { x with p := k * x.p }) = scaleFactor c dmask q := by
    rw [scaleFactor, scaleFactor, e1, e2, List.length_map, max_eq_left (by rw [mul_div_assoc]; exact h2), max_eq_left h1]
    field_simp
  simp only [depthErr, List.map_map, Function.comp_def]
  have e3 : ∀ x : Px, x.g - k * x.p * scaleFactor c dmask (q.map fun x => { x with p := k * x.p }) = x.g - x.p * scaleFactor c dmask q := by
    intro x
    rw [← hs]
    ring
  have e4 : ∀ x : Px, dmask { x with p := k * x.p } = dmask x := fun x => rfl
  simp only [e3, e4]

/-- `use_disparity` rescales the disparities even if `get_best_scale` is off: a prediction far from the truth has no error. -/
theorem disparity_rescales : ∃ l : List Px, (evalDepth false (1 / 10000) (1 / 2) l).1 = 1 ∧ (evalDisparity false (1 / 10000) (1 / 2) 1 l).1 = 0 := by
  refine ⟨[⟨2, 1, 1⟩], ?_, ?_⟩
  · norm_num [evalDepth, depthErr, maskGt, dmask]
  · norm_num [evalDisparity, depthErr, maskGt, dmask, scaleFactor]

/-- With the best scale a prediction proportional to the truth has no error of disparities. -/
theorem disparity_best (k c thr eps : ℝ) (l : List Px) (hk : k ≠ 0) (hv : ∀ x ∈ l, 0 < x.g ∧ thr < x.m ∧ x.p = k * x.g)
    (h0 : 0 < c) (h1 : c ≤ (l.map fun x => x.p * x.p).sum / l.length)
    (h2 : c ≤ (l.map fun x => 1 / (x.g + eps) * (1 / (x.g + eps))).sum / l.length) : evalDisparity true c thr eps l = (0, 0) := by
  have hm : l.map (maskGt thr) = l := by
    conv_rhs => rw [← List.map_id l]
    refine List.map_congr_left fun x hx => ?_
    simp [maskGt, (hv x hx).2.1]
  have hd : ∀ x ∈ l, dmask x = 1 := fun x hx => by simp [dmask, (hv x hx).1]
  have hs : scaleFactor c dmask l = 1 / k := by
    have e1 : (l.map fun x => x.p * x.g * dmask x) = l.map fun x => 1 / k * (x.p * x.p) := by
      refine List.map_congr_left fun x hx => ?_
      rw [hd x hx, (hv x hx).2.2]
      field_simp
    have e2 : (l.map fun x => x.p * x.p * dmask x) = l.map fun x => x.p * x.p :=
      List.map_congr_left fun x hx => by rw [hd x hx, mul_one]
    rw [scaleFactor, e1, e2, max_eq_left h1, List.sum_map_mul_left, mul_div_assoc, mul_div_assoc, div_self (by linarith), mul_one]
  have hq : (l.map fun x => ({ p := 1 / (x.p * (1 / k) + eps), g := 1 / (x.g + eps), m := dmask x } : Px)) =
      l.map fun x => ⟨1 / (x.g + eps), 1 / (x.g + eps), 1⟩ := by
    refine List.map_congr_left fun x hx => ?_
    rw [hd x hx, (hv x hx).2.2, show k * x.g * (1 / k) = x.g by field_simp]
  have hs2 : scaleFactor c (·.m) (l.map fun x => (⟨1 / (x.g + eps), 1 / (x.g + eps), 1⟩ : Px)) = 1 := by
    simp only [scaleFactor, List.map_map, Function.comp_def, mul_one, List.length_map]
    rw [max_eq_left h2, div_self (by linarith)]
  simp only [evalDisparity, if_true, hm, hs, hq, hs2, depthErr, List.map_map, Function.comp_def]
  simp

/-- Without it the error of such a prediction is not zero in general. -/
theorem disparity_plain : (evalDisparity false (1 / 10000) (1 / 2) 1 [⟨2, 1, 1⟩, ⟨4, 2, 1⟩]).1 ≠ 0 := by
  norm_num [evalDisparity, depthErr, maskGt, dmask, scaleFactor]

example : evalDisparity true (1 / 10000) (1 / 2) 1 [⟨2, 1, 1⟩, ⟨4, 2, 1⟩] = (0, 0) :=
  disparity_best 2 _ _ _ _ (by norm_num) (by simp; norm_num) (by norm_num) (by norm_num) (by norm_num)

/-- A prediction of the right shape but small has an error that the best scale would not have. -/
theorem clamp_hurts : (evalDepth true (1 / 10000) (1 / 2) [⟨1 / 1000, 1, 1⟩]).1 = (99 / 100) ^ 2 := by
  norm_num [evalDepth, depthErr, maskGt, dmask, scaleFactor]

/-! ### PSNR -/

/-- PSNR is at most 100, reached for a mean squared error up to 1e-10; above it is the usual formula, decreasing in the error. -/
theorem psnr_spec (e : ℝ) : psnr e ≤ 100 ∧ (e ≤ 1 / 10 ^ 10 → psnr e = 100) ∧ (1 / 10 ^ 10 < e → (10 : ℝ) ^ (-psnr e / 10) = e) ∧
    ∀ e', 1 / 10 ^ 10 ≤ e → e < e' → psnr e' < psnr e := by
  have h10 : Real.logb 10 (1 / 10 ^ 10) = -10 := by
    rw [one_div, Real.logb_inv, Real.logb_pow]
    norm_num
  refine ⟨?_, ?_, ?_, ?_⟩
  · have : Real.logb 10 (1 / 10 ^ 10) ≤ Real.logb 10 (max e (1 / 10 ^ 10)) :=
      Real.logb_le_logb_of_le (by norm_num) (by norm_num) (le_max_right _ _)
    rw [psnr]
    linarith
  · intro h
    rw [psnr, max_eq_right h, h10]
    norm_num
  · intro h
    rw [psnr, max_eq_left h.le]
    have : -(Real.logb 10 e * -10) / 10 = Real.logb 10 e := by ring
    rw [this]
    exact Real.rpow_logb (by norm_num) (by norm_num) (lt_trans (by norm_num) h)
  · intro e' h h'
    rw [psnr, psnr, max_eq_left h, max_eq_left (h.trans h'.le)]
    have := Real.logb_lt_logb (b := 10) (by norm_num) (lt_of_lt_of_le (by norm_num) h) h'
    linarith

/-- With a mask of zeros and ones the error is the mean over the pixels of the mask. -/
theorem mse_mask {l : List Px} (hm : ∀ x ∈ l, x.m = 0 ∨ x.m = 1) :
    mse l = ((l.filter fun x => decide (x.m = 1)).map fun x => (x.p - x.g) ^ 2).sum / (l.filter fun x => decide (x.m = 1)).length := by
  have h : ∀ (f : Px → ℝ), (l.map fun x => f x * x.m).sum = ((l.filter fun x => decide (x.m = 1)).map f).sum := by
    intro f
    induction l with
    | nil => rfl
    | cons x l ih =>
      have ih' := ih fun y hy => hm y (by simp [hy])
      rcases hm x (by simp) with h | h
      · rw [List.filter_cons_of_neg (by simp [h]), List.map_cons, List.sum_cons, ih', h, mul_zero, zero_add]
      · rw [List.filter_cons_of_pos (by simp [h]), List.map_cons, List.sum_cons, ih', h, mul_one, List.map_cons, List.sum_cons]
  have hc : (l.map (·.m)).sum = (l.filter fun x => decide (x.m = 1)).length := by
    have := h fun _ => 1
    simp only [one_mul] at this
    rw [this]
    simp
  rw [mse, h fun x => (x.p - x.g) ^ 2, hc]
  generalize (l.filter fun x => decide (x.m = 1)) = q
  rcases q with _ | ⟨y, t⟩
  · simp
  · rw [max_eq_left]
    simp
    have : (0 : ℝ) ≤ t.length := by positivity
    linarith

/-- An empty mask has the best possible score. -/
theorem psnr_empty {l : List Px} (h : ∀ x ∈ l, x.m = 0) : psnr (mse l) = 100 := by
  have : mse l = 0 := by
    rw [mse, sum_congr l _ (fun _ => 0) (fun x hx => by rw [h x hx, mul_zero]), sum_const]
    simp
  rw [this]
  exact (psnr_spec 0).2.1 (by norm_num)

/-! ### Cross entropy -/

/-- Pixels of the mask in the foreground and in the background. -/
noncomputable def fgs (l : List Px) : List Px := l.filter fun x => decide (x.m = 1 ∧ x.g > 1 / 2)
noncomputable def bgs (l : List Px) : List Px := l.filter fun x => decide (x.m = 1 ∧ ¬ x.g > 1 / 2)

/-- The mean of a loss. -/
noncomputable def mean (f : Px → ℝ) (l : List Px) : ℝ := (l.map f).sum / l.length

theorem sum_fg {l : List Px} (hm : ∀ x ∈ l, x.m = 0 ∨ x.m = 1) (f : Px → ℝ) :
    (l.map fun x => fg x * f x).sum = ((fgs l).map f).sum ∧ (l.map fun x => bg x * f x).sum = ((bgs l).map f).sum := by
  induction l with
  | nil => simp [fgs, bgs]
  | cons x l ih =>
    obtain ⟨i1, i2⟩ := ih fun y hy => hm y (by simp [hy])
    simp only [List.map_cons, List.sum_cons, i1, i2]
    unfold fgs bgs
    rcases hm x (by simp) with h | h
    · rw [List.filter_cons_of_neg (by simp [h]), List.filter_cons_of_neg (by simp [h])]
      simp [fg, bg, h]
    · by_cases hg : x.g > 1 / 2
      · rw [List.filter_cons_of_pos (by simp [h] at hg ⊢; exact hg), List.filter_cons_of_neg (by simp [h] at hg ⊢; exact hg)]
        simp only [fg, bg, h, if_pos hg, List.map_cons, List.sum_cons]
        constructor <;> ring
      · rw [List.filter_cons_of_neg (by simp [h] at hg ⊢; exact hg), List.filter_cons_of_pos (by simp [h] at hg ⊢; exact hg)]
        simp only [fg, bg, h, if_neg hg, List.map_cons, List.sum_cons]
        constructor <;> ring

theorem sum_rawW {l : List Px} (hm : ∀ x ∈ l, x.m = 0 ∨ x.m = 1) (f : Px → ℝ) :
    (l.map fun x => rawW l x * f x).sum = mean f (fgs l) + mean f (bgs l) := by
  obtain ⟨a1, a2⟩ := sum_fg hm fun _ => 1
  simp only [mul_one] at a1 a2
  obtain ⟨b1, b2⟩ := sum_fg hm f
  have e : ∀ x, rawW l x * f x = (max (l.map fg).sum 1)⁻¹ * (fg x * f x) + (max (l.map bg).sum 1)⁻¹ * (bg x * f x) := by
    intro x
    rw [rawW]
    ring
  have hc : ∀ q : List Px, (q.map fun _ => (1 : ℝ)).sum = q.length := fun q => by rw [sum_const, mul_one]
  have hmax : ∀ q : List Px, (max (q.length : ℝ) 1)⁻¹ * (q.map f).sum = mean f q := by
    intro q
    rcases q with _ | ⟨y, t⟩
    · simp [mean]
    · rw [max_eq_left (by simp), mean]
      ring
  rw [sum_congr l _ _ fun x _ => e x, sum_add, sum_mul, sum_mul, b1, b2]
  have a1' : (l.map fg).sum = (fgs l).length := by rw [← hc, ← a1]
  have a2' : (l.map bg).sum = (bgs l).length := by rw [← hc, ← a2]
  rw [a1', a2', hmax, hmax]

theorem mean_one {l : List Px} (h : l ≠ []) : mean (fun _ => 1) l = 1 := by
  have hl : (0 : ℝ) < l.length := by exact_mod_cast List.length_pos_iff.2 h
  rw [mean, sum_const, mul_one]
  exact div_self hl.ne'

/-- With `equal_w` the loss is the mean of the foreground loss and the background loss, whatever their sizes; if one of them is empty
it is the other one, and zero if both are. -/
theorem bce_balanced {f : Px → ℝ} {eps : ℝ} {l q : List Px} (hq : q = l.map fun x => { x with p := clampP eps x.p })
    (hm : ∀ x ∈ l, x.m = 0 ∨ x.m = 1) :
    (fgs q ≠ [] → bgs q ≠ [] → calcBce f true eps l = (mean f (fgs q) + mean f (bgs q)) / 2) ∧
    (fgs q ≠ [] → bgs q = [] → calcBce f true eps l = mean f (fgs q)) ∧
    (fgs q = [] → bgs q ≠ [] → calcBce f true eps l = mean f (bgs q)) ∧
    (fgs q = [] → bgs q = [] → calcBce f true eps l = 0) := by
  have hm' : ∀ x ∈ q, x.m = 0 ∨ x.m = 1 := by
    intro x hx
    rw [hq] at hx
    obtain ⟨y, hy, rfl⟩ := List.mem_map.1 hx
    exact hm y hy
  have hmain : calcBce f true eps l = (mean f (fgs q) + mean f (bgs q)) / max (mean (fun _ => 1) (fgs q) + mean (fun _ => 1) (bgs q)) 1 := by
    unfold calcBce
    simp only [if_true, ← hq]
    have e1 := sum_rawW hm' f
    have e2 := sum_rawW hm' fun _ => 1
    simp only [mul_one] at e2
    rcases hne : q with _ | ⟨y, t⟩
    · simp [fgs, bgs, mean]
    rw [← hne]
    have hl : (0 : ℝ) < q.length := by rw [hne]; simp; positivity
    have e3 : ∀ x, equalW q x * f x = (q.length / max (q.map (rawW q)).sum 1) * (rawW q x * f x) := by
      intro x
      rw [equalW]
      ring
    rw [sum_congr q _ _ fun x _ => e3 x, sum_mul, e1]
    have e2' : (q.map (rawW q)).sum = mean (fun _ => 1) (fgs q) + mean (fun _ => 1) (bgs q) := e2
    rw [e2']
    have hpos : (0 : ℝ) < max (mean (fun _ => 1) (fgs q) + mean (fun _ => 1) (bgs q)) 1 := lt_of_lt_of_le one_pos (le_max_right _ _)
    generalize max (mean (fun _ => 1) (fgs q) + mean (fun _ => 1) (bgs q)) 1 = M at *
    field_simp
  have hz : ∀ g : Px → ℝ, mean g [] = 0 := fun g => by simp [mean]
  refine ⟨fun h1 h2 => ?_, fun h1 h2 => ?_, fun h1 h2 => ?_, fun h1 h2 => ?_⟩
  · rw [hmain, mean_one h1, mean_one h2]
    norm_num
  · rw [hmain, h2, mean_one h1, hz, hz]
    norm_num
  · rw [hmain, h1, mean_one h2, hz, hz]
    norm_num
  · rw [hmain, h1, h2, hz, hz]
    norm_num

/-- Probabilities are kept away from zero and one. -/
theorem clampP_range {eps : ℝ} (h0 : 0 < eps) (h1 : eps ≤ 1 / 2) (p : ℝ) : eps ≤ clampP eps p ∧ clampP eps p ≤ 1 - eps ∧
    (eps ≤ p → p ≤ 1 - eps → clampP eps p = p) := by
  rw [clampP, if_pos h0]
  refine ⟨le_min (le_max_right _ _) (by linarith), min_le_right _ _, fun h2 h3 => ?_⟩
  rw [max_eq_left h2, min_eq_left h3]

/-- With `pred_logits` the logits themselves are clamped to `[pred_eps, 1 - pred_eps]`, so that all logits up to `pred_eps` give the same
loss, and a probability below one half cannot be expressed. -/
theorem logits_clamped {eps : ℝ} (h0 : 0 < eps) (h1 : eps ≤ 1 / 2) (equal : Bool) {l : List Px} (hl : ∀ x ∈ l, x.p ≤ eps) :
    calcBce bceLogit equal eps l = calcBce bceLogit equal eps (l.map fun x => { x with p := 0 }) := by
  have : (l.map fun x => ({ x with p := clampP eps x.p } : Px)) = (l.map fun x => ({ x with p := 0 } : Px)).map fun x => { x with p := clampP eps x.p } := by
    rw [List.map_map]
    apply List.map_congr_left
    intro x hx
    simp only [Function.comp, clampP, if_pos h0, max_eq_right (hl x hx), max_eq_right h0.le]
  unfold calcBce
  rw [this]

theorem logit_half {eps : ℝ} (h0 : 0 < eps) (h1 : eps ≤ 1 / 2) (p : ℝ) : 1 / 2 < Real.sigmoid (clampP eps p) := by
  have hp := (clampP_range h0 h1 p).1
  have h : Real.sigmoid 0 < Real.sigmoid (clampP eps p) := Real.sigmoid_strictMono (lt_of_lt_of_le h0 hp)
  have h2 : Real.sigmoid 0 = 1 / 2 := by
    rw [Real.sigmoid_def]
    norm_num
  rw [← h2]
  exact h

/-- `log_lerp` is the logarithm from `b` on and its tangent at `b` below: it is never below the logarithm. -/
theorem logLerp_ge {b x : ℝ} (hb : 0 < b) (hx : 0 < x) : Real.log x ≤ logLerp b x ∧ (b ≤ x → logLerp b x = Real.log x) ∧
    (x < b → Real.log x < logLerp b x) := by
  have key : x < b → Real.log x < Real.log b + (x - b) / b := by
    intro h
    have h1 := Real.log_lt_sub_one_of_pos (x := x / b) (by positivity) (by
      intro h2
      rw [div_eq_one_iff_eq hb.ne'] at h2
      linarith)
    rw [Real.log_div hx.ne' hb.ne'] at h1
    have : (x - b) / b = x / b - 1 := by field_simp
    linarith
  refine ⟨?_, ?_, ?_⟩
  · unfold logLerp
    split_ifs with h
    · exact le_rfl
    · exact (key (not_le.1 h)).le
  · intro h
    rw [logLerp, if_pos h]
  · intro h
    rw [logLerp, if_neg (not_le.2 h)]
    exact key h

/-- Its derivative is `1 / max x b`: the gradient never exceeds `1 / b`, also for `x ≤ 0`. -/
theorem logLerp_deriv {b : ℝ} (hb : 0 < b) (x : ℝ) : HasDerivAt (logLerp b) (1 / max x b) x := by
  have hlin : ∀ y, HasDerivAt (fun x => Real.log b + (x - b) / b) (1 / b) y := by
    intro y
    have := ((hasDerivAt_id y).sub_const b).div_const b |>.const_add (Real.log b)
    exact this
  rcases lt_trichotomy x b with h | h | h
  · rw [max_eq_right h.le]
    apply (hlin x).congr_of_eventuallyEq
    filter_upwards [Iio_mem_nhds h] with y hy
    rw [logLerp, if_neg (not_le.2 hy)]
  · subst h
    rw [max_self]
    have h1 : HasDerivWithinAt (logLerp x) (1 / x) (Set.Ici x) x := by
      have := (Real.hasDerivAt_log hb.ne').hasDerivWithinAt (s := Set.Ici x)
      rw [one_div]
      refine this.congr (fun y hy => ?_) ?_
      · rw [logLerp, if_pos (Set.mem_Ici.1 hy)]
      · rw [logLerp, if_pos le_rfl]
    have h2 : HasDerivWithinAt (logLerp x) (1 / x) (Set.Iic x) x := by
      have := (hlin x).hasDerivWithinAt (s := Set.Iic x)
      refine this.congr (fun y hy => ?_) ?_
      · rcases (Set.mem_Iic.1 hy).lt_or_eq with h | h
        · rw [logLerp, if_neg (not_le.2 h)]
        · rw [h, logLerp, if_pos le_rfl]
          simp
      · rw [logLerp, if_pos le_rfl]
        simp
    have := h2.union h1
    rw [Set.Iic_union_Ici] at this
    exact hasDerivWithinAt_univ.1 this
  · rw [max_eq_left h.le, one_div]
    apply (Real.hasDerivAt_log (lt_trans hb h).ne').congr_of_eventuallyEq
    filter_upwards [Ioi_mem_nhds h] with y hy
    rw [logLerp, if_pos (le_of_lt hy)]

theorem logLerp_nonpos {b x : ℝ} (hb : 0 < b) (hb1 : b ≤ 1) (hx : x ≤ 1) : logLerp b x ≤ 0 := by
  unfold logLerp
  split_ifs with h
  · exact Real.log_nonpos (le_trans hb.le h) hx
  · have h1 := Real.log_nonpos hb.le hb1
    have : (x - b) / b ≤ 0 := div_nonpos_of_nonpos_of_nonneg (by linarith [not_le.1 h]) hb.le
    linarith

/-- The loss with `lerp_bound` is not negative and, for predictions strictly between zero and one, at most the cross entropy. -/
theorem bceLerp_bounds {b : ℝ} (hb : 0 < b) (hb1 : b ≤ 1) {l : List Px} (hg : ∀ x ∈ l, 0 ≤ x.g ∧ x.g ≤ 1) (hm : ∀ x ∈ l, 0 ≤ x.m)
    (hp : ∀ x ∈ l, 0 < x.p ∧ x.p < 1) :
    0 ≤ bceLerp b l ∧ bceLerp b l ≤ (l.map fun x => bcePx x * x.m).sum / max (l.map (·.m)).sum (1 / 10000) := by
  have hM : (0 : ℝ) < max (l.map (·.m)).sum (1 / 10000) := lt_of_lt_of_le (by norm_num) (le_max_right _ _)
  have e : -((l.map fun x => (logLerp b (1 - x.p) * (1 - x.g) + logLerp b x.p * x.g) * x.m).sum)
      = (l.map fun x => -((logLerp b (1 - x.p) * (1 - x.g) + logLerp b x.p * x.g) * x.m)).sum := by
    have := sum_mul l (fun x => (logLerp b (1 - x.p) * (1 - x.g) + logLerp b x.p * x.g) * x.m) (-1)
    simp only [neg_one_mul] at this
    exact this.symm
  rw [bceLerp, e]
  constructor
  · apply div_nonneg _ hM.le
    apply sum_nonneg
    intro x hx
    obtain ⟨g0, g1⟩ := hg x hx
    obtain ⟨p0, p1⟩ := hp x hx
    have h1 := logLerp_nonpos hb hb1 (x := 1 - x.p) (by linarith)
    have h2 := logLerp_nonpos hb hb1 (x := x.p) p1.le
    have h3 := hm x hx
    have : logLerp b (1 - x.p) * (1 - x.g) + logLerp b x.p * x.g ≤ 0 := by nlinarith
    nlinarith
  · rw [div_le_div_iff_of_pos_right hM]
    apply sum_le
    intro x hx
    obtain ⟨g0, g1⟩ := hg x hx
    obtain ⟨p0, p1⟩ := hp x hx
    have h1 := (logLerp_ge hb (x := 1 - x.p) (by linarith)).1
    have h2 := (logLerp_ge hb (x := x.p) p0).1
    have h3 := hm x hx
    rw [bcePx]
    have h4 : Real.log (1 - x.p) * (1 - x.g) + Real.log x.p * x.g ≤ logLerp b (1 - x.p) * (1 - x.g) + logLerp b x.p * x.g := by
      have := mul_le_mul_of_nonneg_right h1 (show 0 ≤ 1 - x.g by linarith)
      have := mul_le_mul_of_nonneg_right h2 g0
      linarith
    nlinarith

/-! ### Other losses -/

/-- `rgb_l1` with a mask of ones of one channel divides by the number of pixels: it is the number of channels times the mean absolute error. -/
theorem rgbL1_channels {C : Nat} (hC : 0 < C) {l : List (List (ℝ × ℝ) × ℝ)} (hl : l ≠ []) (hc : ∀ x ∈ l, x.1.length = C) (hm : ∀ x ∈ l, x.2 = 1) :
    rgbL1 l = C * ((l.flatMap (·.1)).map (fun c => |c.1 - c.2|)).sum / (l.flatMap (·.1)).length := by
  have h1 : (l.map (·.2)).sum = l.length := by
    rw [sum_congr l _ (fun _ => 1) hm, sum_const, mul_one]
  have h2 : (l.map fun x => (x.1.map fun c => |c.1 - c.2| * x.2).sum).sum = ((l.flatMap (·.1)).map (fun c => |c.1 - c.2|)).sum := by
    clear hl h1 hc
    induction l with
    | nil => rfl
    | cons x l ih =>
      rw [List.map_cons, List.sum_cons, ih fun y hy => hm y (by simp [hy]), List.flatMap_cons, List.map_append, List.sum_append]
      simp only [hm x (by simp), mul_one]
  have h3 : ((l.flatMap (·.1)).length : ℝ) = l.length * C := by
    clear hl h1 h2 hm
    induction l with
    | nil => simp
    | cons x l ih =>
      rw [List.flatMap_cons, List.length_append, List.length_cons, hc x (by simp)]
      push_cast
      rw [ih fun y hy => hc y (by simp [hy])]
      ring
  have hp : (1 : ℝ) ≤ l.length := by exact_mod_cast List.length_pos_iff.2 hl
  have hCp : (0 : ℝ) < C := by exact_mod_cast hC
  rw [rgbL1, h1, h2, h3, max_eq_left hp]
  field_simp

/-- `huber` lies between the absolute error less the scaling and the absolute error plus a hundredth of the scaling; it is positive at zero. -/
theorem huber_bounds {s d : ℝ} (hs : 0 < s) (hd : 0 ≤ d) : d - s < huber s (d ^ 2) ∧ huber s (d ^ 2) ≤ d + s / 100 ∧ 0 < huber s (d ^ 2) := by
  have h0 : max (1 + d ^ 2 / (s * s)) 0 = 1 + d ^ 2 / (s * s) := max_eq_left (by positivity)
  have hq : (d / s) ^ 2 = d ^ 2 / (s * s) := by rw [div_pow]; ring
  have hds : 0 ≤ d / s := by positivity
  have e : d = d / s * s := by field_simp
  rw [huber, safeSqrt, h0, ← hq]
  have l1 : d / s < Real.sqrt (1 + (d / s) ^ 2 + 1 / 10000) := by
    apply Real.lt_sqrt_of_sq_lt
    linarith
  have l2 : Real.sqrt (1 + (d / s) ^ 2 + 1 / 10000) ≤ d / s + 1 + 1 / 100 := by
    apply Real.sqrt_le_iff.2
    constructor
    · positivity
    · nlinarith
  have l3 : 1 < Real.sqrt (1 + (d / s) ^ 2 + 1 / 10000) := by
    apply Real.lt_sqrt_of_sq_lt
    nlinarith [sq_nonneg (d / s)]
  generalize Real.sqrt (1 + (d / s) ^ 2 + 1 / 10000) = r at *
  refine ⟨?_, ?_, ?_⟩
  · have := mul_lt_mul_of_pos_right l1 hs
    rw [← e] at this
    linarith
  · have := mul_le_mul_of_nonneg_right l2 hs.le
    have e' : (d / s + 1 + 1 / 100) * s = d + s + s / 100 := by field_simp
    rw [e'] at this
    linarith
  · exact mul_pos (by linarith) hs

/-- The IoU of masks in [0, 1] lies in [0, 1) — never one, and zero for two empty masks. -/
theorem iou_range {l : List Px} (h : ∀ x ∈ l, 0 ≤ x.p ∧ x.p ≤ 1 ∧ 0 ≤ x.g ∧ x.g ≤ 1 ∧ 0 ≤ x.m ∧ x.m ≤ 1) : 0 ≤ iou l ∧ iou l < 1 := by
  have hle : (l.map fun x => (x.p * x.m) * (x.g * x.m)).sum ≤ (l.map fun x => x.p * x.m + x.g * x.m - (x.p * x.m) * (x.g * x.m)).sum := by
    apply sum_le
    intro x hx
    obtain ⟨p0, p1, g0, g1, m0, m1⟩ := h x hx
    have a0 : 0 ≤ x.p * x.m := by positivity
    have a1 : x.p * x.m ≤ 1 := by nlinarith
    have b0 : 0 ≤ x.g * x.m := by positivity
    have b1 : x.g * x.m ≤ 1 := by nlinarith
    nlinarith
  have h0 : 0 ≤ (l.map fun x => (x.p * x.m) * (x.g * x.m)).sum := by
    apply sum_nonneg
    intro x hx
    obtain ⟨p0, p1, g0, g1, m0, m1⟩ := h x hx
    positivity
  constructor
  · exact div_nonneg h0 (by linarith)
  · rw [iou, div_lt_one (by linarith)]
    linarith

/-- Equal masks of zeros and ones: the number of pixels over the same plus 1e-4. -/
theorem iou_self {l : List Px} (h : ∀ x ∈ l, x.p = x.g ∧ (x.g = 0 ∨ x.g = 1) ∧ x.m = 1) :
    iou l = (l.map (·.g)).sum / ((l.map (·.g)).sum + 1 / 10000) := by
  rw [iou]
  congr 1
  · apply sum_congr
    intro x hx
    obtain ⟨h1, h2 | h2, h3⟩ := h x hx <;> rw [h1, h2, h3] <;> norm_num
  · congr 1
    apply sum_congr
    intro x hx
    obtain ⟨h1, h2 | h2, h3⟩ := h x hx <;> rw [h1, h2, h3] <;> norm_num

theorem iou_empty {l : List Px} (h : ∀ x ∈ l, x.p = 0) : iou l = 0 := by
  rw [iou, sum_congr l _ (fun _ => 0) (fun x hx => by rw [h x hx]; ring), sum_const]
  simp

/-- `beta_prior` is not negative on [0, 1], and zero exactly if all values are zero or one. -/
theorem betaPrior_spec {cap : ℝ} (hc : 0 < cap) {l : List ℝ} (hl : l ≠ []) (h : ∀ p ∈ l, 0 ≤ p ∧ p ≤ 1) :
    0 ≤ betaPrior cap l ∧ (betaPrior cap l = 0 ↔ ∀ p ∈ l, p = 0 ∨ p = 1) := by
  have hn : (0 : ℝ) < l.length := by exact_mod_cast List.length_pos_iff.2 hl
  have e : betaPrior cap l = (l.map fun p => Real.log (p + cap) + Real.log (1 - p + cap) - (Real.log cap + Real.log (cap + 1))).sum / l.length := by
    have : (l.map fun p => Real.log (p + cap) + Real.log (1 - p + cap) - (Real.log cap + Real.log (cap + 1))).sum
        = (l.map fun p => Real.log (p + cap) + Real.log (1 - p + cap)).sum + l.length * (-(Real.log cap + Real.log (cap + 1))) := by
      rw [← sum_const, ← sum_add]
      rfl
    rw [betaPrior, this]
    field_simp
    ring
  have key : ∀ p ∈ l, Real.log (p + cap) + Real.log (1 - p + cap) - (Real.log cap + Real.log (cap + 1))
      = Real.log ((cap * (cap + 1) + p * (1 - p)) / (cap * (cap + 1))) := by
    intro p hp
    obtain ⟨p0, p1⟩ := h p hp
    have q1 : p + cap ≠ 0 := by linarith
    have q2 : 1 - p + cap ≠ 0 := by linarith
    have q3 : cap + 1 ≠ 0 := by linarith
    have q4 : 0 < cap * (cap + 1) + p * (1 - p) := by
      have : 0 ≤ p * (1 - p) := mul_nonneg p0 (by linarith)
      have : 0 < cap * (cap + 1) := by positivity
      linarith
    rw [← Real.log_mul q1 q2, ← Real.log_mul hc.ne' q3, Real.log_div q4.ne' (by positivity)]
    congr 2
    ring
  have hnn : ∀ p ∈ l, 0 ≤ Real.log (p + cap) + Real.log (1 - p + cap) - (Real.log cap + Real.log (cap + 1)) := by
    intro p hp
    rw [key p hp]
    obtain ⟨p0, p1⟩ := h p hp
    apply Real.log_nonneg
    rw [le_div_iff₀ (by positivity)]
    have : 0 ≤ p * (1 - p) := mul_nonneg p0 (by linarith)
    linarith
  have hpos : ∀ p ∈ l, (0 < Real.log (p + cap) + Real.log (1 - p + cap) - (Real.log cap + Real.log (cap + 1)) ↔ ¬ (p = 0 ∨ p = 1)) := by
    intro p hp
    rw [key p hp]
    obtain ⟨p0, p1⟩ := h p hp
    constructor
    · rintro hlt (rfl | rfl)
      · rw [zero_mul, add_zero, div_self (by positivity), Real.log_one] at hlt
        exact lt_irrefl _ hlt
      · rw [sub_self, mul_zero, add_zero, div_self (by positivity), Real.log_one] at hlt
        exact lt_irrefl _ hlt
    · intro hne
      push Not at hne
      apply Real.log_pos
      rw [lt_div_iff₀ (by positivity)]
      have a1 : 0 < p := lt_of_le_of_ne p0 (Ne.symm hne.1)
      have a2 : 0 < 1 - p := by have := lt_of_le_of_ne p1 hne.2; linarith
      have : 0 < p * (1 - p) := mul_pos a1 a2
      linarith
  have hs := sum_nonneg l _ hnn
  refine ⟨by rw [e]; exact div_nonneg hs hn.le, ?_⟩
  rw [e, div_eq_zero_iff]
  constructor
  · rintro (h0 | h0)
    · intro p hp
      by_contra hne
      have := (sum_pos_iff l _ hnn).2 ⟨p, hp, (hpos p hp).2 hne⟩
      linarith
    · linarith
  · intro hall
    left
    by_contra hne
    obtain ⟨p, hp, hlt⟩ := (sum_pos_iff l _ hnn).1 (lt_of_le_of_ne hs (Ne.symm hne))
    exact (hpos p hp).1 hlt (hall p hp)

/-! ### Examples -/

example : (evalDepth true (1 / 10000) (1 / 2) [⟨2, 1, 1⟩, ⟨4, 2, 1⟩, ⟨9, 3, 0⟩]).1 = 0 := by
  norm_num [evalDepth, depthErr, maskGt, dmask, scaleFactor]

example : (evalDepth false (1 / 10000) (1 / 2) [⟨2, 1, 1⟩, ⟨4, 2, 1⟩, ⟨9, 3, 0⟩]).1 = 5 / 2 := by
  norm_num [evalDepth, depthErr, maskGt, dmask, scaleFactor]

/-- Three foreground pixels and one background pixel. -/
example (f : Px → ℝ) : calcBce f true 0 [⟨0.9, 1, 1⟩, ⟨0.8, 1, 1⟩, ⟨0.7, 1, 1⟩, ⟨0.2, 0, 1⟩]
    = ((f ⟨0.9, 1, 1⟩ + f ⟨0.8, 1, 1⟩ + f ⟨0.7, 1, 1⟩) / 3 + f ⟨0.2, 0, 1⟩) / 2 := by
  norm_num [calcBce, clampP, equalW, rawW, fg, bg]
  ring

example : rgbL1 [([(1, 0), (1, 0), (1, 0)], 1)] = 3 := by norm_num [rgbL1]

example : iou [⟨1, 1, 1⟩, ⟨0, 0, 1⟩] = 10000 / 10001 ∧ iou [⟨1 / 2, 1 / 2, 1⟩] < 1 / 2 := by norm_num [iou]

end P3D.Metrics
