/-
`implicitron/models/view_pooler`: sampling image features at the projections of points and pooling them over the views.
One point is looked at; the features of a view are the list of its channels.  Projection and `ndc_grid_sample` are a function
(`Sampler`), modelled elsewhere (Camera, GridSample); a batch without cameras (`max` of nothing) is not modelled.
-/
import Verif.Vec3
import Mathlib.Analysis.SpecialFunctions.Pow.Real
import Mathlib.Tactic.Linarith
import Mathlib.Tactic.Ring
import Mathlib.Tactic.FieldSimp
import Mathlib.Tactic.NormNum
import Mathlib.Tactic.LinearCombination
import Mathlib.Tactic.Positivity

set_option linter.unusedSectionVars false
set_option linter.unusedSimpArgs false
set_option linter.unusedVariables false

namespace P3D.ViewPool

/-! ### Model -/

/-- The features and the weight of one view at a point. -/
structure View where
  x : List ℝ
  w : ℝ

/-- The values and weights of one channel. -/
def chan (vs : List View) (k : Nat) : List (ℝ × ℝ) := vs.map fun v => (v.x.getD k 0, v.w)

/-- `ReductionFunction` (feature_aggregator.py:24-28). -/
inductive Red
  | avg | max | std | stdAvg
  deriving DecidableEq

/-- `max` over the views. -/
def top : List ℝ → ℝ
  | [] => 0
  | a :: l => l.foldl max a

/-- `wmean` with `eps` (ops/utils.py:106). -/
noncomputable def wmean (eps : ℝ) (l : List (ℝ × ℝ)) : ℝ :=
  (l.map fun p => p.1 * p.2).sum / Max.max (l.map (·.2)).sum eps

/-- `_avg_reduction_function` (feature_aggregator.py:646-652). -/
noncomputable def avg (l : List (ℝ × ℝ)) : ℝ := wmean (1 / 100) l

/-- `_std_reduction_function` (feature_aggregator.py:655-666). -/
noncomputable def std (l : List (ℝ × ℝ)) : ℝ :=
  Real.sqrt (Max.max (wmean (1 / 100) (l.map fun p => ((p.1 - avg l) ^ 2, p.2))) (1 / 10000))

/-- `_max_reduction_function` (feature_aggregator.py:682-690). -/
noncomputable def maxR (l : List (ℝ × ℝ)) : ℝ :=
  top (l.map fun p => p.1 * p.2 - (1 - p.2) * (|top (l.map (·.1))| * 10))

/-- The pooled channels before masking (feature_aggregator.py:611-632): always in the order avg, std, std_avg, max. -/
noncomputable def pooled (fs : List Red) (dim : Nat) (vs : List View) : List ℝ :=
  (if Red.avg ∈ fs then (List.range dim).map fun k => avg (chan vs k) else []) ++
  (if Red.std ∈ fs then (List.range dim).map fun k => std (chan vs k) else []) ++
  (if Red.stdAvg ∈ fs then [((List.range dim).map fun k => std (chan vs k)).sum / dim] else []) ++
  (if Red.max ∈ fs then (List.range dim).map fun k => maxR (chan vs k) else [])

/-- `any_active` (feature_aggregator.py:636). -/
noncomputable def active (vs : List View) : ℝ := if top (vs.map (·.w)) > 1 / 10000 then 1 else 0

/-- `_avgmaxstd_reduction_function` (feature_aggregator.py:590-643); `none`: nothing to concatenate. -/
noncomputable def reduce (fs : List Red) (dim : Nat) (vs : List View) : Option (List ℝ) :=
  if fs = [] then none else some ((pooled fs dim vs).map (· * active vs))

/-- `_get_reduction_aggregator_feature_dim` (feature_aggregator.py:439-465). -/
def aggDim (fs : List Red) (dims : List Nat) : Nat :=
  if fs = [] then dims.sum else (fs.map fun f => if f = Red.stdAvg then 1 else dims.sum).sum

/-- Row `b` of `_get_view_sampling_mask` (feature_aggregator.py:468-478); there are only as many rows as cameras. -/
def maskRow (n b : Nat) (excl : Bool) : Option (List ℝ) :=
  if b < n then some ((List.range n).map fun c => -(if c = b then 1 else 0) * (if excl then 1 else 0) + 1) else none

/-- Features and masks of all cameras at a point (view_sampler.py:102-191). -/
structure Sampler (P : Type) where
  feat : Nat → P → List ℝ
  mask : Nat → P → ℝ

/-- `camera_pts_mask` (view_sampler.py:89-91). -/
def same (seqPts seqCam : Nat → Int) (b c : Nat) : ℝ := if seqCam c = seqPts b then 1 else 0

/-- `ViewSampler.forward` for a point of batch element `b` (view_sampler.py:34-99); one view per camera. -/
def viewSample {P : Type} (n : Nat) (S : Sampler P) (seqPts seqCam : Nat → Int) (b : Nat) (p : P) : List View :=
  (List.range n).map fun c => ⟨(S.feat c p).map (· * same seqPts seqCam b c), S.mask c p * same seqPts seqCam b c⟩

/-- `_mask_target_view_features` (feature_aggregator.py:481-497). -/
def maskTarget (n b : Nat) (vs : List View) : Option (List View) :=
  (maskRow n b true).map fun m => List.zipWith (fun v a => ⟨v.x.map (· * a), v.w⟩) vs m

/-- `ReductionFeatureAggregator.forward` for one feature tensor (feature_aggregator.py:218-243) with weights `u` of the views
(one for this class, the angle weights for `AngleWeightedReductionFeatureAggregator`, :318-350). -/
noncomputable def aggregate (fs : List Red) (dim n b : Nat) (excl maskF : Bool) (u : List ℝ) (vs : List View) : Option (List ℝ) := do
  let vs ← if maskF then maskTarget n b vs else some vs
  let m ← maskRow n b excl
  reduce fs dim (List.zipWith (fun v a => ⟨v.x, a⟩) vs (List.zipWith (fun a c => a * c) (List.zipWith (fun v a => v.w * a) vs u) m))

/-- `cameras_points_cartesian_product` (view_sampler.py:215-296). -/
def cartesian {C P : Type} (cams : List C) (pts : List P) : List (C × P) :=
  List.zip (cams.flatMap fun c => List.replicate pts.length c) (List.replicate cams.length pts).flatten

/-- `F.normalize`. -/
noncomputable def normalize (v : V3 ℝ) : V3 ℝ := (Max.max (Real.sqrt (V3.normSq v)) (1 / 10 ^ 12))⁻¹ • v

/-- `-T Rᵀ` (feature_aggregator.py:534-538); the rows of `R` are given. -/
def camCenter (r0 r1 r2 t : V3 ℝ) : V3 ℝ := ⟨-V3.dot t r0, -V3.dot t r1, -V3.dot t r2⟩

/-- `_get_ray_dir_dot_prods` at `[b, c]` (feature_aggregator.py:527-573): camera `b` is the target camera. -/
noncomputable def dirDot (centers : List (V3 ℝ)) (b c : Nat) (p : V3 ℝ) : Option ℝ := do
  let cb ← centers[b]?
  let cc ← centers[c]?
  some (V3.dot (normalize (p - cb)) (normalize (p - cc)))

/-- `_get_ray_angle_weights` (feature_aggregator.py:576-587). -/
noncomputable def angleWeight (minW gamma d : ℝ) : ℝ := (d * (1 / 2) + 1 / 2 + minW) ^ gamma

/-! ### Maximum and sums -/

theorem foldl_max_spec (l : List ℝ) (a : ℝ) : (∀ x ∈ a :: l, x ≤ l.foldl max a) ∧ l.foldl max a ∈ a :: l := by
  induction l generalizing a with
  | nil => simp
  | cons b l ih =>
    obtain ⟨h1, h2⟩ := ih (Max.max a b)
    rw [List.foldl_cons]
    constructor
    · intro x hx
      rcases List.mem_cons.1 hx with rfl | hx
      · exact le_trans (le_max_left _ b) (h1 _ (by simp))
      · rcases List.mem_cons.1 hx with rfl | hx
        · exact le_trans (le_max_right a _) (h1 _ (by simp))
        · exact h1 _ (by simp [hx])
    · rcases List.mem_cons.1 h2 with h | h
      · rw [h]
        rcases max_choice a b with e | e <;> simp [e]
      · simp [h]

/-- `top` is the greatest element. -/
theorem top_spec {l : List ℝ} (h : l ≠ []) : (∀ x ∈ l, x ≤ top l) ∧ top l ∈ l := by
  rcases l with _ | ⟨a, l⟩
  · exact absurd rfl h
  · exact foldl_max_spec l a

theorem top_unique {l : List ℝ} {m : ℝ} (h1 : ∀ x ∈ l, x ≤ m) (h2 : m ∈ l) : top l = m := by
  have h := top_spec (l := l) (by rintro rfl; simp at h2)
  exact le_antisymm (h1 _ h.2) (h.1 _ h2)

theorem sum_nonneg {α : Type} (l : List α) (f : α → ℝ) (h : ∀ a ∈ l, 0 ≤ f a) : 0 ≤ (l.map f).sum := by
  induction l with
  | nil => simp
  | cons a l ih =>
    rw [List.map_cons, List.sum_cons]
    have := h a (by simp)
    have := ih fun b hb => h b (by simp [hb])
    linarith

theorem sum_le {α : Type} (l : List α) (f g : α → ℝ) (h : ∀ a ∈ l, f a ≤ g a) : (l.map f).sum ≤ (l.map g).sum := by
  induction l with
  | nil => simp
  | cons a l ih =>
    rw [List.map_cons, List.sum_cons, List.map_cons, List.sum_cons]
    have := h a (by simp)
    have := ih fun b hb => h b (by simp [hb])
    linarith

theorem sum_mul {α : Type} (l : List α) (f : α → ℝ) (k : ℝ) : (l.map fun a => k * f a).sum = k * (l.map f).sum := by
  induction l with
  | nil => simp
  | cons a l ih => simp only [List.map_cons, List.sum_cons, ih]; ring

/-! ### Average and deviation -/

/-- If the weights sum up to at least a hundredth, the average lies between the smallest and the largest feature of positive weight. -/
theorem avg_between {l : List (ℝ × ℝ)} (hw : ∀ p ∈ l, 0 ≤ p.2) (hs : 1 / 100 ≤ (l.map (·.2)).sum) {a b : ℝ}
    (h : ∀ p ∈ l, 0 < p.2 → a ≤ p.1 ∧ p.1 ≤ b) : a ≤ avg l ∧ avg l ≤ b := by
  have hp : 0 < (l.map (·.2)).sum := by linarith
  rw [avg, wmean, max_eq_left hs, le_div_iff₀ hp, div_le_iff₀ hp, ← sum_mul, ← sum_mul]
  constructor <;> apply sum_le <;> intro p hpl
  · rcases (hw p hpl).lt_or_eq with hh | hh
    · exact mul_le_mul_of_nonneg_right (h p hpl hh).1 hh.le
    · rw [← hh]; simp
  · rcases (hw p hpl).lt_or_eq with hh | hh
    · exact mul_le_mul_of_nonneg_right (h p hpl hh).2 hh.le
    · rw [← hh]; simp

/-- Weights that sum up to less than a hundredth shrink the average: it is a hundred times the weighted sum. -/
theorem avg_small {l : List (ℝ × ℝ)} (hs : (l.map (·.2)).sum ≤ 1 / 100) : avg l = 100 * (l.map fun p => p.1 * p.2).sum := by
  rw [avg, wmean, max_eq_right hs]
  field_simp

/-- Only views of non-zero weight count. -/
theorem wmean_filter (eps : ℝ) (l : List (ℝ × ℝ)) : wmean eps l = wmean eps (l.filter fun p => decide (p.2 ≠ 0)) := by
  have h : ∀ f : ℝ × ℝ → ℝ, (∀ p, p.2 = 0 → f p = 0) → (l.map f).sum = ((l.filter fun p => decide (p.2 ≠ 0)).map f).sum := by
    intro f hf
    induction l with
    | nil => rfl
    | cons p l ih =>
      by_cases hp : p.2 = 0
      · rw [List.filter_cons_of_neg (by simp [hp]), List.map_cons, List.sum_cons, hf p hp, zero_add, ih]
      · rw [List.filter_cons_of_pos (by simp [hp]), List.map_cons, List.sum_cons, List.map_cons, List.sum_cons, ih]
  rw [wmean, wmean, h (fun p => p.1 * p.2) (fun p hp => by rw [hp, mul_zero]), h (·.2) (fun p hp => hp)]

theorem avg_filter (l : List (ℝ × ℝ)) : avg l = avg (l.filter fun p => decide (p.2 ≠ 0)) := wmean_filter _ l

theorem std_filter (l : List (ℝ × ℝ)) : std l = std (l.filter fun p => decide (p.2 ≠ 0)) := by
  unfold std
  rw [← avg_filter, wmean_filter]
  congr 4
  rw [List.filter_map]
  rfl

/-- The deviation is never below 0.01, and exactly 0.01 if all features of positive weight are equal. -/
theorem std_ge (l : List (ℝ × ℝ)) : 1 / 100 ≤ std l := by
  rw [std]
  apply Real.le_sqrt_of_sq_le
  exact le_trans (by norm_num) (le_max_right _ _)

theorem std_const {l : List (ℝ × ℝ)} (hw : ∀ p ∈ l, 0 ≤ p.2) (hs : 1 / 100 ≤ (l.map (·.2)).sum) {a : ℝ}
    (h : ∀ p ∈ l, 0 < p.2 → p.1 = a) : avg l = a ∧ std l = 1 / 100 := by
  have ha : avg l = a := by
    have := avg_between hw hs (a := a) (b := a) fun p hp h0 => by rw [h p hp h0]; exact ⟨le_rfl, le_rfl⟩
    exact le_antisymm this.2 this.1
  refine ⟨ha, ?_⟩
  have h0 : wmean (1 / 100) (l.map fun p => ((p.1 - avg l) ^ 2, p.2)) = 0 := by
    rw [wmean, List.map_map]
    have : (l.map ((fun p : ℝ × ℝ => p.1 * p.2) ∘ fun p => ((p.1 - avg l) ^ 2, p.2))).sum = (l.map fun _ => (0 : ℝ)).sum := by
      congr 1
      apply List.map_congr_left
      intro p hp
      simp only [Function.comp]
      rcases (hw p hp).lt_or_eq with hh | hh
      · rw [h p hp hh, ha]; ring
      · rw [← hh]; ring
    rw [this]
    simp
  rw [std, h0, max_eq_right (by norm_num)]
  rw [show (1 / 10000 : ℝ) = (1 / 100) ^ 2 by norm_num]
  exact Real.sqrt_sq (by norm_num)

/-! ### Maximum -/

/-- With weights zero and one: the maximum over the views of weight one, or minus ten times the absolute value of the maximum over all
views if there is a view of weight zero and that is larger. -/
theorem maxR_mask {l : List (ℝ × ℝ)} (hw : ∀ p ∈ l, p.2 = 0 ∨ p.2 = 1) (ha : ∃ p ∈ l, p.2 = 1) :
    maxR l = if ∃ p ∈ l, p.2 = 0 then Max.max (top ((l.filter fun p => decide (p.2 = 1)).map (·.1))) (-(10 * |top (l.map (·.1))|))
      else top ((l.filter fun p => decide (p.2 = 1)).map (·.1)) := by
  have hne : ((l.filter fun p => decide (p.2 = 1)).map (·.1)) ≠ [] := by
    obtain ⟨p, hp, h1⟩ := ha
    intro h
    rw [List.map_eq_nil_iff, List.filter_eq_nil_iff] at h
    exact h p hp (by simp [h1])
  obtain ⟨t1, t2⟩ := top_spec hne
  generalize hM : |top (l.map (·.1))| = M
  generalize htop : top ((l.filter fun p => decide (p.2 = 1)).map (·.1)) = t at *
  obtain ⟨q, hq, rfl⟩ := List.mem_map.1 t2
  rw [List.mem_filter] at hq
  have hq1 : q.2 = 1 := by simpa using hq.2
  have hact : ∀ p ∈ l, p.2 = 1 → p.1 ≤ q.1 := fun p hp h1 => t1 _ (List.mem_map.2 ⟨p, List.mem_filter.2 ⟨hp, by simp [h1]⟩, rfl⟩)
  split_ifs with h0
  · obtain ⟨z, hz, hz0⟩ := h0
    apply top_unique
    · intro x hx
      obtain ⟨p, hp, rfl⟩ := List.mem_map.1 hx
      rcases hw p hp with h | h <;> simp only [h, hM]
      · apply le_trans _ (le_max_right _ _)
        linarith
      · apply le_trans _ (le_max_left _ _)
        linarith [hact p hp h]
    · rcases max_choice q.1 (-(10 * M)) with e | e <;> rw [e]
      · exact List.mem_map.2 ⟨q, hq.1, by simp only [hq1, hM]; ring⟩
      · exact List.mem_map.2 ⟨z, hz, by simp only [hz0, hM]; ring⟩
  · apply top_unique
    · intro x hx
      obtain ⟨p, hp, rfl⟩ := List.mem_map.1 hx
      have h1 : p.2 = 1 := (hw p hp).resolve_left fun h => h0 ⟨p, hp, h⟩
      simp only [h1]
      linarith [hact p hp h1]
    · exact List.mem_map.2 ⟨q, hq.1, by simp only [hq1]; ring⟩

/-- The maximum over the views of weight one comes out if one of their features is not negative. -/
theorem maxR_nonneg {l : List (ℝ × ℝ)} (hw : ∀ p ∈ l, p.2 = 0 ∨ p.2 = 1) (ha : ∃ p ∈ l, p.2 = 1 ∧ 0 ≤ p.1) :
    maxR l = top ((l.filter fun p => decide (p.2 = 1)).map (·.1)) := by
  obtain ⟨p, hp, h1, h2⟩ := ha
  rw [maxR_mask hw ⟨p, hp, h1⟩]
  split_ifs with h0
  · apply max_eq_left
    have hmem : p.1 ∈ (l.filter fun p => decide (p.2 = 1)).map (·.1) := List.mem_map.2 ⟨p, List.mem_filter.2 ⟨hp, by simp [h1]⟩, rfl⟩
    have := (top_spec (List.ne_nil_of_mem hmem)).1 _ hmem
    have := abs_nonneg (top (l.map (·.1)))
    linarith
  · rfl

/-- If the masked features are zero, as they are for the excluded target view and for other sequences, and all other features are
negative, the result is zero and not their maximum. -/
theorem maxR_negative {l : List (ℝ × ℝ)} (hw : ∀ p ∈ l, (p.2 = 0 ∧ p.1 = 0) ∨ (p.2 = 1 ∧ p.1 < 0)) (ha : ∃ p ∈ l, p.2 = 1)
    (h0 : ∃ p ∈ l, p.2 = 0) : maxR l = 0 ∧ top ((l.filter fun p => decide (p.2 = 1)).map (·.1)) < 0 := by
  obtain ⟨z, hz, hz0⟩ := h0
  have hz1 : z.1 = 0 := by
    rcases hw z hz with h | h
    · exact h.2
    · rw [h.1] at hz0; norm_num at hz0
  have ht : top (l.map (·.1)) = 0 := by
    apply top_unique
    · intro x hx
      obtain ⟨p, hp, rfl⟩ := List.mem_map.1 hx
      rcases hw p hp with h | h
      · exact h.2.le
      · exact h.2.le
    · exact List.mem_map.2 ⟨z, hz, hz1⟩
  have hneg : top ((l.filter fun p => decide (p.2 = 1)).map (·.1)) < 0 := by
    obtain ⟨p, hp, h1⟩ := ha
    have hmem : p.1 ∈ (l.filter fun p => decide (p.2 = 1)).map (·.1) := List.mem_map.2 ⟨p, List.mem_filter.2 ⟨hp, by simp [h1]⟩, rfl⟩
    obtain ⟨q, hq, hqe⟩ := List.mem_map.1 (top_spec (List.ne_nil_of_mem hmem)).2
    rw [← hqe]
    rw [List.mem_filter] at hq
    rcases hw q hq.1 with h | h
    · have := hq.2
      simp [h.1] at this
    · exact h.2
  refine ⟨?_, hneg⟩
  rw [maxR_mask (fun p hp => (hw p hp).imp And.left And.left) ha, if_pos ⟨z, hz, hz0⟩, ht]
  simp only [abs_zero, mul_zero, neg_zero]
  exact max_eq_right hneg.le

/-- Weights above one, as angle weights can be, give more than the largest feature. -/
theorem maxR_exceeds : maxR [(1, 11 / 10)] = 21 / 10 := by
  norm_num [maxR, top]

/-! ### Dimensions -/

theorem reduce_length (fs : List Red) (dim : Nat) (vs : List View) (hf : fs ≠ []) :
    ∃ r, reduce fs dim vs = some r ∧ r.length = (if Red.avg ∈ fs then dim else 0) + (if Red.std ∈ fs then dim else 0)
      + (if Red.stdAvg ∈ fs then 1 else 0) + (if Red.max ∈ fs then dim else 0) := by
  refine ⟨_, by rw [reduce, if_neg hf], ?_⟩
  rw [List.length_map, pooled]
  simp only [List.length_append]
  split_ifs <;> simp

/-- Without repetitions in `reduction_functions` the announced dimension is the right one exactly if `STD_AVG` is not used or there is
one feature tensor (`STD_AVG` gives one channel for each tensor, but one is counted). -/
theorem aggDim_right {fs : List Red} (hf : fs ≠ []) (hn : fs.Nodup) (dims : List Nat) (vs : Nat → List View) :
    ((dims.map fun d => ((reduce fs d (vs d)).getD []).length).sum = aggDim fs dims) ↔ (Red.stdAvg ∉ fs ∨ dims.length = 1) := by
  have hlen : ∀ d, ((reduce fs d (vs d)).getD []).length = (if Red.avg ∈ fs then d else 0) + (if Red.std ∈ fs then d else 0)
      + (if Red.stdAvg ∈ fs then 1 else 0) + (if Red.max ∈ fs then d else 0) := by
    intro d
    obtain ⟨r, h1, h2⟩ := reduce_length fs d (vs d) hf
    rw [h1, Option.getD_some, h2]
  have hcount : ∀ (f : Red → Nat), (fs.map f).sum = (if Red.avg ∈ fs then f Red.avg else 0) + (if Red.std ∈ fs then f Red.std else 0)
      + (if Red.stdAvg ∈ fs then f Red.stdAvg else 0) + (if Red.max ∈ fs then f Red.max else 0) := by
    intro f
    clear hf hlen
    induction fs with
    | nil => simp
    | cons a l ih =>
      rw [List.nodup_cons] at hn
      rw [List.map_cons, List.sum_cons, ih hn.2]
      have ha := hn.1
      rcases a <;> simp only [List.mem_cons, reduceCtorEq, false_or, true_or, if_true, if_neg ha] <;> omega
  rw [aggDim, if_neg hf, hcount]
  simp only [hlen]
  have hsum : (dims.map fun d => (if Red.avg ∈ fs then d else 0) + (if Red.std ∈ fs then d else 0)
      + (if Red.stdAvg ∈ fs then 1 else 0) + (if Red.max ∈ fs then d else 0)).sum
      = (if Red.avg ∈ fs then dims.sum else 0) + (if Red.std ∈ fs then dims.sum else 0)
      + (if Red.stdAvg ∈ fs then dims.length else 0) + (if Red.max ∈ fs then dims.sum else 0) := by
    clear hcount hlen vs
    induction dims with
    | nil => simp
    | cons d l ih =>
      rw [List.map_cons, List.sum_cons, ih]
      simp only [List.sum_cons, List.length_cons]
      split_ifs <;> omega
  rw [hsum]
  simp only [reduceCtorEq, if_false, if_true]
  by_cases h : Red.stdAvg ∈ fs
  · simp only [h, if_true, not_true_eq_false, false_or]
    omega
  · simp only [h, if_false, not_false_eq_true, true_or]

/-! ### Which views count -/

/-- The mask of a batch element: zero for its own camera if the target view is excluded, one otherwise. -/
theorem maskRow_spec {n b : Nat} {excl : Bool} : (maskRow n b excl = none ↔ n ≤ b) ∧ ∀ m, maskRow n b excl = some m →
    m.length = n ∧ ∀ c < n, m[c]? = some (if c = b ∧ excl = true then 0 else 1) := by
  unfold maskRow
  constructor
  · split_ifs with h
    · simp [h]
    · simp [h]
      omega
  · intro m hm
    by_cases h : b < n
    swap
    · rw [if_neg h] at hm; exact absurd hm (by simp)
    rw [if_pos h, Option.some.injEq] at hm
    subst hm
    refine ⟨by simp, fun c hc => ?_⟩
    rw [List.getElem?_map, List.getElem?_range hc]
    rcases excl <;> by_cases hcb : c = b <;> simp [hcb]

/-- Element `c * pts_batch + b` of the product is camera `c` with points `b`. -/
theorem cartesian_get {C P : Type} (cams : List C) (pts : List P) {b c : Nat} (hb : b < pts.length) (hc : c < cams.length) :
    (cartesian cams pts)[c * pts.length + b]? = some (cams[c], pts[b]) := by
  have h1 : ∀ (l : List C) (c : Nat) (hc : c < l.length), (l.flatMap fun c => List.replicate pts.length c)[c * pts.length + b]? = some l[c] := by
    intro l
    induction l with
    | nil => intro c hc; simp at hc
    | cons a l ih =>
      intro c hc
      rw [List.flatMap_cons]
      rcases c with _ | c
      · rw [List.getElem?_append_left (by simpa using hb)]
        simp [hb]
      · rw [List.getElem?_append_right (by simp; nlinarith)]
        have e : (c + 1) * pts.length + b - (List.replicate pts.length a).length = c * pts.length + b := by
          rw [List.length_replicate, Nat.succ_mul]; omega
        rw [e, ih c (by simpa using hc)]
        rfl
  have h2 : ∀ (n c : Nat), c < n → ((List.replicate n pts).flatten)[c * pts.length + b]? = some pts[b] := by
    intro n
    induction n with
    | zero => intro c hc; omega
    | succ n ih =>
      intro c hc
      rw [List.replicate_succ, List.flatten_cons]
      rcases c with _ | c
      · rw [List.getElem?_append_left (by simpa using hb)]
        simp [hb]
      · rw [List.getElem?_append_right (by rw [Nat.succ_mul]; omega)]
        have e : (c + 1) * pts.length + b - pts.length = c * pts.length + b := by
          rw [Nat.succ_mul]; omega
        rw [e, ih c (by omega)]
  rw [cartesian]
  exact List.getElem?_zip_eq_some.2 ⟨h1 cams c hc, h2 cams.length c hc⟩

/-- The views that `aggregate` reduces. -/
noncomputable def seen {P : Type} (n b : Nat) (excl maskF : Bool) (u : Nat → ℝ) (S : Sampler P) (seqPts seqCam : Nat → Int) (p : P) : List View :=
  (List.range n).map fun c => ⟨(S.feat c p).map (· * (same seqPts seqCam b c * if c = b ∧ maskF = true then 0 else 1)),
    S.mask c p * same seqPts seqCam b c * u c * if c = b ∧ excl = true then 0 else 1⟩

theorem maskRow_eq {n b : Nat} {excl : Bool} (hb : b < n) :
    maskRow n b excl = some ((List.range n).map fun c => if c = b ∧ excl = true then (0 : ℝ) else 1) := by
  rw [maskRow, if_pos hb]
  congr 1
  apply List.map_congr_left
  intro c _
  rcases excl <;> by_cases hcb : c = b <;> simp [hcb]

/-- Sampling and pooling in one formula. -/
theorem aggregate_seen {P : Type} {fs : List Red} {dim n b : Nat} {excl maskF : Bool} {u : Nat → ℝ} {S : Sampler P}
    {seqPts seqCam : Nat → Int} {p : P} (hb : b < n) :
    aggregate fs dim n b excl maskF ((List.range n).map u) (viewSample n S seqPts seqCam b p) =
      reduce fs dim (seen n b excl maskF u S seqPts seqCam p) := by
  rcases maskF with _ | _
  · rw [aggregate, maskRow_eq hb]
    simp only [Bool.false_eq_true, if_false, viewSample, Option.bind_eq_bind, Option.bind_some, List.zipWith_map, List.zipWith_self,
      seen, and_false, mul_one]
  · rw [aggregate, maskTarget, maskRow_eq hb, maskRow_eq hb]
    simp only [if_true, viewSample, Option.map_some, Option.bind_eq_bind, Option.bind_some, List.zipWith_map, List.zipWith_self,
      seen, and_true, List.map_map, Function.comp_def, mul_assoc]

/-- More point batches than cameras fail. -/
theorem aggregate_fails {fs : List Red} {dim n b : Nat} {excl maskF : Bool} {u : List ℝ} {vs : List View} (hb : n ≤ b) :
    aggregate fs dim n b excl maskF u vs = none := by
  have h : ∀ e, maskRow n b e = none := fun e => maskRow_spec.1.2 hb
  rcases maskF <;> simp [aggregate, maskTarget, h]

/-- With the default settings the pooled features of a point of batch element `b` depend only on the images of the other cameras of
its sequence: not on other sequences, nor on the target image. -/
theorem pooled_local {P : Type} {fs : List Red} {dim n b : Nat} {u : Nat → ℝ} {S S' : Sampler P} {seqPts seqCam : Nat → Int} {p : P}
    (hb : b < n) (hl : ∀ c, (S.feat c p).length = (S'.feat c p).length)
    (hsame : ∀ c < n, seqCam c = seqPts b → c ≠ b → S.feat c p = S'.feat c p ∧ S.mask c p = S'.mask c p) :
    aggregate fs dim n b true true ((List.range n).map u) (viewSample n S seqPts seqCam b p) =
      aggregate fs dim n b true true ((List.range n).map u) (viewSample n S' seqPts seqCam b p) := by
  rw [aggregate_seen hb, aggregate_seen hb]
  congr 1
  apply List.map_congr_left
  intro c hc
  by_cases h : seqCam c = seqPts b ∧ c ≠ b
  · obtain ⟨h1, h2⟩ := hsame c (List.mem_range.1 hc) h.1 h.2
    rw [h1, h2]
  · have hz : (same seqPts seqCam b c * if c = b ∧ true = true then 0 else 1) = 0 := by
      rw [same]
      by_cases h1 : seqCam c = seqPts b
      · have : c = b := by by_contra h2; exact h ⟨h1, h2⟩
        simp [this]
      · simp [h1]
    have hw : ∀ a : ℝ, a * same seqPts seqCam b c * u c * (if c = b ∧ true = true then 0 else 1) = 0 := by
      intro a
      have : a * same seqPts seqCam b c * u c * (if c = b ∧ true = true then 0 else 1)
          = a * u c * (same seqPts seqCam b c * if c = b ∧ true = true then 0 else 1) := by ring
      rw [this, hz, mul_zero]
    rw [hz, hw, hw]
    simp only [mul_zero]
    rw [List.map_const', List.map_const', hl]

/-- Without another view of the same sequence everything is zero. -/
theorem pooled_alone {P : Type} {fs : List Red} {dim n b : Nat} {u : Nat → ℝ} {S : Sampler P} {seqPts seqCam : Nat → Int} {p : P}
    {maskF : Bool} (hb : b < n) (hf : fs ≠ []) (h : ∀ c < n, seqCam c = seqPts b → c = b) :
    ∃ r, aggregate fs dim n b true maskF ((List.range n).map u) (viewSample n S seqPts seqCam b p) = some r ∧ ∀ x ∈ r, x = 0 := by
  rw [aggregate_seen hb, reduce, if_neg hf]
  refine ⟨_, rfl, ?_⟩
  have hw : ∀ v ∈ seen n b true maskF u S seqPts seqCam p, v.w = 0 := by
    intro v hv
    obtain ⟨c, hc, rfl⟩ := List.mem_map.1 hv
    by_cases h1 : seqCam c = seqPts b
    · have := h c (List.mem_range.1 hc) h1
      simp [this]
    · simp [same, h1]
  have ha : active (seen n b true maskF u S seqPts seqCam p) = 0 := by
    rw [active, if_neg]
    have hne : (seen n b true maskF u S seqPts seqCam p).map (·.w) ≠ [] := by
      simp [seen]
      omega
    obtain ⟨v, hv, e⟩ := List.mem_map.1 (top_spec hne).2
    rw [← e, hw v hv]
    norm_num
  intro x hx
  obtain ⟨y, _, rfl⟩ := List.mem_map.1 hx
  rw [ha, mul_zero]

/-- Without masks and with weights one, every other view of the sequence counts the same, whether it sees the point or not: the average
is the sum of the sampled features divided by the number of these views. -/
theorem pooled_avg {P : Type} {dim n b k : Nat} {S : Sampler P} {seqPts seqCam : Nat → Int} {p : P} (hb : b < n)
    (hm : ∀ c, S.mask c p = 1) (hk : k < dim) (hne : ∃ c < n, seqCam c = seqPts b ∧ c ≠ b) :
    ∃ r : List ℝ, aggregate [Red.avg] dim n b true true ((List.range n).map fun _ => 1) (viewSample n S seqPts seqCam b p) = some r ∧
      r[k]? = some ((((List.range n).filter fun c => decide (seqCam c = seqPts b ∧ c ≠ b)).map fun c => (S.feat c p).getD k 0).sum
        / ((List.range n).filter fun c => decide (seqCam c = seqPts b ∧ c ≠ b)).length) := by
  rw [aggregate_seen hb, reduce, if_neg (by simp)]
  refine ⟨_, rfl, ?_⟩
  have hget : ∀ (l : List ℝ) (a : ℝ), (l.map (· * a)).getD k 0 = l.getD k 0 * a := by
    intro l a
    rw [List.getD_eq_getElem?_getD, List.getD_eq_getElem?_getD, List.getElem?_map]
    rcases l[k]? with _ | y <;> simp
  have hch : chan (seen n b true true (fun _ => 1) S seqPts seqCam p) k = (List.range n).map fun c =>
      ((S.feat c p).getD k 0 * (if seqCam c = seqPts b ∧ c ≠ b then 1 else 0), if seqCam c = seqPts b ∧ c ≠ b then (1 : ℝ) else 0) := by
    rw [chan, seen, List.map_map]
    apply List.map_congr_left
    intro c _
    simp only [Function.comp, hget, hm, same]
    by_cases h1 : seqCam c = seqPts b <;> by_cases h2 : c = b <;> simp [h1, h2]
  have hfil : ∀ (l : List Nat) (f : Nat → ℝ), (l.map fun c => f c * if seqCam c = seqPts b ∧ c ≠ b then (1 : ℝ) else 0).sum
      = ((l.filter fun c => decide (seqCam c = seqPts b ∧ c ≠ b)).map f).sum := by
    intro l f
    induction l with
    | nil => rfl
    | cons c l ih =>
      by_cases hc : seqCam c = seqPts b ∧ c ≠ b
      · rw [List.filter_cons_of_pos (by simpa using hc), List.map_cons, List.sum_cons, ih, List.map_cons, List.sum_cons, if_pos hc, mul_one]
      · rw [List.filter_cons_of_neg (by simpa using hc), List.map_cons, List.sum_cons, ih, if_neg hc, mul_zero, zero_add]
  have hcnt : ((List.range n).map fun c => if seqCam c = seqPts b ∧ c ≠ b then (1 : ℝ) else 0).sum
      = ((List.range n).filter fun c => decide (seqCam c = seqPts b ∧ c ≠ b)).length := by
    have := hfil (List.range n) fun _ => 1
    simp only [one_mul] at this
    rw [this]
    simp
  obtain ⟨c0, hc0, hc1⟩ := hne
  have hmem0 : c0 ∈ (List.range n).filter fun c => decide (seqCam c = seqPts b ∧ c ≠ b) :=
    List.mem_filter.2 ⟨List.mem_range.2 hc0, by simpa using hc1⟩
  have hpos : (1 : ℝ) ≤ ((List.range n).filter fun c => decide (seqCam c = seqPts b ∧ c ≠ b)).length := by
    exact_mod_cast List.length_pos_of_mem hmem0
  have hact : active (seen n b true true (fun _ => 1) S seqPts seqCam p) = 1 := by
    rw [active, if_pos]
    have hm1 : (1 : ℝ) ∈ (seen n b true true (fun _ => 1) S seqPts seqCam p).map (·.w) := by
      rw [seen, List.map_map]
      refine List.mem_map.2 ⟨c0, List.mem_range.2 hc0, ?_⟩
      simp [Function.comp, hm, same, hc1]
    have := (top_spec (List.ne_nil_of_mem hm1)).1 _ hm1
    linarith
  rw [hact]
  simp only [mul_one, List.map_id']
  have hp : pooled [Red.avg] dim (seen n b true true (fun _ => 1) S seqPts seqCam p)
      = (List.range dim).map fun k => avg (chan (seen n b true true (fun _ => 1) S seqPts seqCam p) k) := by
    simp [pooled]
  rw [hp, List.getElem?_map, List.getElem?_range hk, Option.map_some, hch, avg, wmean, List.map_map, List.map_map]
  congr 2
  · rw [← hfil]
    congr 1
    apply List.map_congr_left
    intro c _
    simp only [Function.comp]
    split_ifs <;> ring
  · have e : ((List.range n).map ((fun x : ℝ × ℝ => x.2) ∘ fun c => ((S.feat c p).getD k 0 * (if seqCam c = seqPts b ∧ c ≠ b then 1 else 0),
        if seqCam c = seqPts b ∧ c ≠ b then (1 : ℝ) else 0))).sum = ((List.range n).filter fun c => decide (seqCam c = seqPts b ∧ c ≠ b)).length := hcnt
    rw [e]
    exact max_eq_left (by linarith)

/-! ### Angle weights -/

theorem normalize_le (v : V3 ℝ) : V3.normSq (normalize v) ≤ 1 := by
  have h1 : (0 : ℝ) < Max.max (Real.sqrt (V3.normSq v)) (1 / 10 ^ 12) := lt_of_lt_of_le (by norm_num) (le_max_right _ _)
  have h0 : 0 ≤ V3.normSq v := by simp only [V3.normSq, V3.dot]; nlinarith [mul_self_nonneg v.x, mul_self_nonneg v.y, mul_self_nonneg v.z]
  have h2 : V3.normSq (normalize v) = V3.normSq v / Max.max (Real.sqrt (V3.normSq v)) (1 / 10 ^ 12) ^ 2 := by
    rw [normalize]
    generalize Max.max (Real.sqrt (V3.normSq v)) (1 / 10 ^ 12) = m at *
    simp only [V3.normSq, V3.dot, V3.smul_x, V3.smul_y, V3.smul_z]
    field_simp
  rw [h2, div_le_one (by positivity)]
  calc V3.normSq v = Real.sqrt (V3.normSq v) ^ 2 := (Real.sq_sqrt h0).symm
    _ ≤ _ := by gcongr; exact le_max_left _ _

theorem normalize_unit {v : V3 ℝ} (h : 1 / 10 ^ 24 ≤ V3.normSq v) : V3.normSq (normalize v) = 1 := by
  have hs : 1 / 10 ^ 12 ≤ Real.sqrt (V3.normSq v) := by
    apply Real.le_sqrt_of_sq_le
    norm_num at h ⊢
    exact h
  have h0 : 0 < V3.normSq v := lt_of_lt_of_le (by norm_num) h
  rw [normalize, max_eq_left hs]
  have hp : 0 < Real.sqrt (V3.normSq v) := Real.sqrt_pos.2 h0
  have hq := Real.sq_sqrt h0.le
  generalize Real.sqrt (V3.normSq v) = m at *
  simp only [V3.normSq, V3.dot, V3.smul_x, V3.smul_y, V3.smul_z] at *
  field_simp
  linarith

/-- Angle weights lie between those of opposite and of equal directions; the target camera itself has the largest one. -/
theorem angle_range {centers : List (V3 ℝ)} {b c : Nat} {p : V3 ℝ} {d minW gamma : ℝ} (h : dirDot centers b c p = some d)
    (hm : 0 ≤ minW) (hg : 0 ≤ gamma) :
    -1 ≤ d ∧ d ≤ 1 ∧ minW ^ gamma ≤ angleWeight minW gamma d ∧ angleWeight minW gamma d ≤ (1 + minW) ^ gamma ∧
      (c = b → (∀ q, centers[b]? = some q → 1 / 10 ^ 24 ≤ V3.normSq (p - q)) → angleWeight minW gamma d = (1 + minW) ^ gamma) := by
  unfold dirDot at h
  rcases hb : centers[b]? with _ | cb
  · simp [hb] at h
  rcases hc : centers[c]? with _ | cc
  · simp [hb, hc] at h
  simp only [hb, hc, Option.bind_eq_bind, Option.bind_some, Option.some.injEq] at h
  have n1 := normalize_le (p - cb)
  have n2 := normalize_le (p - cc)
  have hr : -1 ≤ d ∧ d ≤ 1 := by
    rw [← h]
    generalize normalize (p - cb) = a at *
    generalize normalize (p - cc) = e at *
    simp only [V3.normSq, V3.dot] at *
    constructor
    · nlinarith [sq_nonneg (a.x + e.x), sq_nonneg (a.y + e.y), sq_nonneg (a.z + e.z)]
    · nlinarith [sq_nonneg (a.x - e.x), sq_nonneg (a.y - e.y), sq_nonneg (a.z - e.z)]
  refine ⟨hr.1, hr.2, ?_, ?_, ?_⟩
  · exact Real.rpow_le_rpow hm (by linarith [hr.1]) hg
  · exact Real.rpow_le_rpow (by linarith [hr.1]) (by linarith [hr.2]) hg
  · intro hcb hq
    subst hcb
    have e : cb = cc := by rw [hb] at hc; exact Option.some.inj hc
    subst e
    have := normalize_unit (hq cb rfl)
    have hd : d = 1 := by rw [← h, ← this]; simp only [V3.normSq, V3.dot]
    rw [angleWeight, hd]
    congr 1
    ring

/-- The camera centre of `_get_ray_dir_dot_prods` is mapped to the origin of the camera if `R` is orthogonal. -/
theorem camCenter_spec {r0 r1 r2 t : V3 ℝ} (hx : r0.x * r0.x + r1.x * r1.x + r2.x * r2.x = 1) (hy : r0.y * r0.y + r1.y * r1.y + r2.y * r2.y = 1)
    (hz : r0.z * r0.z + r1.z * r1.z + r2.z * r2.z = 1) (hxy : r0.x * r0.y + r1.x * r1.y + r2.x * r2.y = 0)
    (hxz : r0.x * r0.z + r1.x * r1.z + r2.x * r2.z = 0) (hyz : r0.y * r0.z + r1.y * r1.z + r2.y * r2.z = 0) :
    (camCenter r0 r1 r2 t).x • r0 + (camCenter r0 r1 r2 t).y • r1 + (camCenter r0 r1 r2 t).z • r2 + t = 0 := by
  ext <;> simp only [camCenter, V3.dot, V3.add_x, V3.add_y, V3.add_z, V3.smul_x, V3.smul_y, V3.smul_z, V3.zero_x, V3.zero_y, V3.zero_z]
  · linear_combination -t.x * hx - t.y * hxy - t.z * hxz
  · linear_combination -t.x * hxy - t.y * hy - t.z * hyz
  · linear_combination -t.x * hxz - t.y * hyz - t.z * hz

/-! ### Examples -/

/-- Three cameras; the last belongs to another sequence. -/
def exS : Sampler Unit := ⟨fun c _ => [[1, -5], [2, -3], [7, 7]].getD c [], fun _ _ => 1⟩

def exSeqCam : Nat → Int := fun c => if c = 2 then 20 else 10

/-- Batch element 0 sees only camera 1; its second feature is -3, but max pooling gives 0. -/
example : ((seen 3 0 true true (fun _ => 1) exS (fun _ => 10) exSeqCam ()).map (·.w)) = [0, 1, 0] := by
  norm_num [seen, exS, exSeqCam, same, List.range_succ]

example : avg (chan (seen 3 0 true true (fun _ => 1) exS (fun _ => 10) exSeqCam ()) 1) = -3 ∧
    maxR (chan (seen 3 0 true true (fun _ => 1) exS (fun _ => 10) exSeqCam ()) 1) = 0 := by
  have h : chan (seen 3 0 true true (fun _ => 1) exS (fun _ => 10) exSeqCam ()) 1 = [(0, 0), (-3, 1), (0, 0)] := by
    norm_num [chan, seen, exS, exSeqCam, same, List.range_succ]
  rw [h]
  norm_num [avg, wmean, maxR, top]

example : aggDim [Red.avg, Red.stdAvg] [3, 4] = 8 ∧ cartesian ['a', 'b'] [1, 2, 3] = [('a', 1), ('a', 2), ('a', 3), ('b', 1), ('b', 2), ('b', 3)] := by
  decide

example : (maxR [(-3, 1), (0, 0)], maxR [(-3, 1), (-1, 1)], maxR [(2, 1), (7, 0)]) = (0, -1, 2) := by
  norm_num [maxR, top]

example : avg [(5, 1 / 200)] = 5 / 2 := by norm_num [avg, wmean]

end P3D.ViewPool
