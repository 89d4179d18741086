/-
Losses of implicitron models (`pytorch3d/implicitron/models/metrics.py`).

A pixel has the predicted and true channels, the crop mask and the foreground mask. The functions of `metric_utils.py` are in `Metrics`.
Not modelled: sampling of images at rays (`ndc_grid_sample`), mixed precision, NaN, floats.
-/
import Verif.Metrics
import Verif.Text
import Mathlib.Algebra.Order.BigOperators.Group.List
import Mathlib.Data.List.Sort

set_option linter.unusedSectionVars false

namespace P3D.ViewMetrics
open P3D.Text

inductive Err
  | value
  | index
  deriving DecidableEq, Repr

/-! ### The code -/

/-- `tensor[ids]`. -/
def pick {α : Type} (imgs : List α) (ids : List Nat) : Except Err (List α) :=
  match ids.mapM fun i => imgs[i]? with
  | none => .error .index
  | some l => .ok l

/-- The images `sample_packed` (metrics.py:260-271) samples: it picks the cameras' images twice. -/
def packedImages {α : Type} (imgs : List α) (ids : List Nat) : Except Err (List α) :=
  match pick imgs ids with
  | .error e => .error e
  | .ok l => pick l ids

/-- A sampled pixel. -/
structure Pixel where
  pred : List ℝ
  gt : List ℝ
  crop : ℝ
  mask : ℝ

/-- The mean over channels. -/
noncomputable def chanMean (f : ℝ → ℝ) (x : Pixel) : ℝ := ((List.zipWith (fun a b => f (a - b)) x.pred x.gt).sum) / x.pred.length

noncomputable def rgbAbs : Pixel → ℝ := chanMean fun d => |d|
noncomputable def rgbSq : Pixel → ℝ := chanMean fun d => d ^ 2

/-- `(v * w).sum() / w.sum().clamp(1.0)`. -/
noncomputable def clampMean (v w : Pixel → ℝ) (l : List Pixel) : ℝ := (l.map fun x => v x * w x).sum / max (l.map w).sum 1

structure Rgb where
  huber : ℝ
  l1 : ℝ
  mse : ℝ
  mseFg : ℝ

/-- `_rgb_metrics` (lines 359-389) without the signal-to-noise ratios. -/
noncomputable def rgbMetrics (chans predChans : Nat) (s : ℝ) (l : List Pixel) : Except Err Rgb :=
  if chans ≠ predChans then .error .value
  else .ok {
    huber := clampMean (fun x => Metrics.huber s (rgbSq x)) Pixel.crop l
    l1 := clampMean rgbAbs Pixel.crop l
    mse := clampMean rgbSq Pixel.crop l
    mseFg := clampMean rgbSq (fun x => x.crop * x.mask) l }

noncomputable def mean (l : List ℝ) : ℝ := l.sum / l.length

/-- `_get_eikonal_loss` (lines 392-393) of gradients `(n, 3)`. -/
noncomputable def eikonal (l : List (List ℝ)) : ℝ := mean (l.map fun g => (Real.sqrt ((g.map fun x => x ^ 2).sum) - 1) ^ 2)

/-- `_get_depth_neg_penalty_loss` (lines 414-416). -/
noncomputable def depthNeg (l : List ℝ) : ℝ := mean (l.map fun d => (min d 0) ^ 2)

/-- One term of `_get_grid_tv_loss` (lines 402-411) after the logarithm: the grid at a cell and its successors along the axes. -/
noncomputable def tvTerm (g gx gy gz : ℝ) : ℝ := Real.sqrt (max ((gz - g) ^ 2 + (gy - g) ^ 2 + (gx - g) ^ 2) 0 + 1 / 10 ^ 5)

/-- The cells that have a successor along every axis. -/
def inner (a b c : Nat) : List (Nat × Nat × Nat) :=
  (List.range (a - 1)).flatMap fun i => (List.range (b - 1)).flatMap fun j => (List.range (c - 1)).map fun k => (i, j, k)

/-- `_get_grid_tv_loss` (lines 396-411) of a grid with `a × b × c` cells. -/
noncomputable def gridTv (a b c : Nat) (grid : Nat → Nat → Nat → ℝ) : ℝ :=
  let g := fun i j k => Real.log (grid i j k + 1 / 10 ^ 5)
  mean ((inner a b c).map fun p => tvTerm (g p.1 p.2.1 p.2.2) (g (p.1 + 1) p.2.1 p.2.2) (g p.1 (p.2.1 + 1) p.2.2) (g p.1 p.2.1 (p.2.2 + 1)))

variable {V : Type}

/-- `dict.update` with the keys of the second dictionary new. -/
def update (d e : List (Str × V)) : List (Str × V) := d.filter (fun p => decide (p.1 ∉ e.map Prod.fst)) ++ e

/-- `forward` (lines 127-220): each stage's metrics, with the prefix of the stage. -/
def forward (pre : Str) : List (List (Str × V)) → List (Str × V)
  | [] => []
  | s :: prev => update (s.map fun p => (pre ++ p.1, p.2)) (forward (pre ++ "prev_stage_".toList) prev)

/-! ### Theorems -/

theorem pick_ok {α : Type} (imgs : List α) : ∀ (ids : List Nat) (l : List α), pick imgs ids = .ok l ↔ ids.map (fun i => imgs[i]?) = l.map some
  | [], l => by
    unfold pick
    simp only [List.mapM_nil, List.map_nil]
    cases l with
    | nil => simp [pure]
    | cons a l => simp [pure]
  | i :: ids, l => by
    have ih := pick_ok imgs ids
    unfold pick at ih ⊢
    rw [List.mapM_cons, List.map_cons]
    cases hi : imgs[i]? with
    | none => cases l <;> simp [bind]
    | some a =>
      cases hm : ids.mapM fun i => imgs[i]? with
      | none =>
        cases l with
        | nil => simp [bind]
        | cons b l =>
          have := (ih l)
          rw [hm] at this
          simp only [reduceCtorEq, false_iff] at this
          simp [bind, this]
      | some l' =>
        cases l with
        | nil => simp [bind, pure]
        | cons b l =>
          have := (ih l)
          rw [hm] at this
          simp only [Except.ok.injEq] at this
          simp [bind, pure, ← this]

theorem pick_length {α : Type} {imgs : List α} {ids : List Nat} {l : List α} (h : pick imgs ids = .ok l) : l.length = ids.length := by
  have := congrArg List.length ((pick_ok _ _ _).1 h)
  simpa using this.symm

theorem pick_get {α : Type} {imgs : List α} {ids : List Nat} {l : List α} (h : pick imgs ids = .ok l) (k : Nat) : l[k]? = ids[k]?.bind fun i => imgs[i]? := by
  have := congrArg (fun m => m[k]?) ((pick_ok _ _ _).1 h)
  simp only [List.getElem?_map] at this
  cases hk : ids[k]? with
  | none =>
    rw [hk] at this
    simp only [Option.map_none] at this
    cases hl : l[k]? with
    | none => rfl
    | some a => rw [hl] at this; simp at this
  | some i =>
    rw [hk] at this
    simp only [Option.map_some] at this
    cases hl : l[k]? with
    | none => rw [hl] at this; simp at this
    | some a =>
      rw [hl] at this
      simp only [Option.map_some, Option.some.injEq] at this
      exact this.symm

/-- Packed rays are compared with image `ids[ids[k]]` instead of `ids[k]`. -/
theorem packed_spec {α : Type} {imgs : List α} {ids : List Nat} {l : List α} (h : packedImages imgs ids = .ok l) (k : Nat) :
    l[k]? = ids[k]?.bind fun i => ids[i]?.bind fun j => imgs[j]? := by
  unfold packedImages at h
  cases hp : pick imgs ids with
  | error e => rw [hp] at h; cases h
  | ok l' =>
    rw [hp] at h
    dsimp only at h
    rw [pick_get h k]
    cases ids[k]? with
    | none => rfl
    | some i => exact pick_get hp i

theorem sorted_range : ∀ (ids : List Nat) (b : Nat), ids.Pairwise (· < ·) → (∀ i ∈ ids, b ≤ i) → (∀ i ∈ ids, i < b + ids.length) → ids = List.range' b ids.length
  | [], _, _, _, _ => rfl
  | a :: ids, b, h, hb, hl => by
    rw [List.pairwise_cons] at h
    have hab : a = b := by
      by_contra hne
      have hba : b < a := lt_of_le_of_ne (hb a List.mem_cons_self) (Ne.symm hne)
      -- the remaining numbers are too many for what is left
      have hnd : ids.Nodup := h.2.imp fun h => Nat.ne_of_lt h
      have hsub : ∀ i ∈ ids, i ∈ List.range' (a + 1) (b + ids.length - a) := by
        intro i hi
        rw [List.mem_range'_1]
        have h1 := h.1 i hi
        have h2 := hl i (List.mem_cons_of_mem _ hi)
        rw [List.length_cons] at h2
        omega
      have := (List.subperm_of_subset hnd hsub).length_le
      rw [List.length_range'] at this
      have h3 := hl a List.mem_cons_self
      rw [List.length_cons] at h3
      omega
    subst hab
    rw [List.length_cons, List.range'_succ, ← sorted_range ids (a + 1) h.2 (fun i hi => h.1 i hi) fun i hi => ?_]
    have := hl i (List.mem_cons_of_mem _ hi)
    rw [List.length_cons] at this
    omega

/-- For the sorted distinct camera numbers of a packed bundle the images are right if the first cameras were all sampled; a camera left out before the last makes it an IndexError. -/
theorem packed_sorted {α : Type} (imgs : List α) (ids : List Nat) (hs : ids.Pairwise (· < ·)) (hr : ∀ i ∈ ids, i < imgs.length) :
    (ids = List.range ids.length → packedImages imgs ids = pick imgs ids ∧ ∃ l, pick imgs ids = .ok l)
      ∧ (ids ≠ List.range ids.length → packedImages imgs ids = .error .index) := by
  have hpick : ∃ l, pick imgs ids = .ok l := by
    refine ⟨ids.pmap (fun i h => imgs[i]'h) hr, ?_⟩
    rw [pick_ok]
    refine List.ext_getElem (by simp) fun k h1 h2 => ?_
    simp only [List.getElem_map, List.getElem_pmap]
    exact List.getElem?_eq_getElem _
  obtain ⟨l, hl⟩ := hpick
  have hlen := pick_length hl
  have hpk : packedImages imgs ids = pick l ids := by
    unfold packedImages
    rw [hl]
  refine ⟨fun h => ⟨?_, l, hl⟩, fun h => ?_⟩
  · rw [hpk, hl, pick_ok]
    refine List.ext_getElem? fun k => ?_
    rw [List.getElem?_map, List.getElem?_map]
    by_cases hk : k < ids.length
    · have : ids[k]? = some k := by
        rw [h, List.getElem?_range hk]
      rw [this]
      rw [← hlen] at hk
      simp [List.getElem?_eq_getElem hk]
    · rw [List.getElem?_eq_none (by omega), List.getElem?_eq_none (by omega)]
      rfl
  · rw [hpk]
    have : ∃ i ∈ ids, ids.length ≤ i := by
      by_contra hc
      push Not at hc
      apply h
      have := sorted_range ids 0 hs (fun _ _ => Nat.zero_le _) (by simpa using hc)
      rwa [← List.range_eq_range'] at this
    obtain ⟨i, hi, hge⟩ := this
    cases hp : pick l ids with
    | error e =>
      unfold pick at hp
      cases hm : ids.mapM fun i => l[i]? with
      | none => rw [hm] at hp; rw [← Except.error.inj hp]
      | some x => rw [hm] at hp; cases hp
    | ok x =>
      have h1 := (pick_ok _ _ _).1 hp
      have h2 : (l[i]? : Option α) ∈ x.map some := by
        rw [← h1]
        exact List.mem_map.2 ⟨i, hi, rfl⟩
      rw [List.getElem?_eq_none (by omega)] at h2
      simp at h2

/-- Cameras 1 and 0 in this order: each is compared with its own number twice applied, that is with the other's image. -/
example : packedImages ["a", "b", "c"] [1, 0] = .ok ["a", "b"] ∧ pick ["a", "b", "c"] [1, 0] = .ok ["b", "a"] ∧ packedImages ["a", "b", "c"] [0, 2] = .error .index := by decide

/-- What is outside of the crop does not count. -/
theorem clampMean_congr (v v' w : Pixel → ℝ) (l : List Pixel) (h : ∀ x ∈ l, w x ≠ 0 → v x = v' x) : clampMean v w l = clampMean v' w l := by
  unfold clampMean
  congr 2
  refine List.map_congr_left fun x hx => ?_
  by_cases hw : w x = 0
  · rw [hw, mul_zero, mul_zero]
  · rw [h x hx hw]

/-- With a mass of at least one it is a weighted mean; with less the error is reported too small. -/
theorem clampMean_const (c : ℝ) (w : Pixel → ℝ) (l : List Pixel) :
    (1 ≤ (l.map w).sum → clampMean (fun _ => c) w l = c) ∧ ((l.map w).sum ≤ 1 → clampMean (fun _ => c) w l = c * (l.map w).sum) := by
  have : (l.map fun x => c * w x).sum = c * (l.map w).sum := List.sum_map_mul_left ..
  unfold clampMean
  rw [this]
  refine ⟨fun h => ?_, fun h => ?_⟩
  · rw [max_eq_left h, mul_div_assoc, div_self (by linarith), mul_one]
  · rw [max_eq_right h, div_one]

theorem clampMean_nonneg (v w : Pixel → ℝ) (l : List Pixel) (hv : ∀ x ∈ l, 0 ≤ v x) (hw : ∀ x ∈ l, 0 ≤ w x) : 0 ≤ clampMean v w l :=
  div_nonneg (Metrics.sum_nonneg l _ fun x hx => mul_nonneg (hv x hx) (hw x hx)) (le_max_of_le_right zero_le_one)

theorem clampMean_zero (v w : Pixel → ℝ) (l : List Pixel) (hv : ∀ x ∈ l, 0 ≤ v x) (hw : ∀ x ∈ l, 0 ≤ w x) :
    clampMean v w l = 0 ↔ ∀ x ∈ l, w x ≠ 0 → v x = 0 := by
  have hnn : ∀ x ∈ l, 0 ≤ v x * w x := fun x hx => mul_nonneg (hv x hx) (hw x hx)
  have hm : (0 : ℝ) < max (l.map w).sum 1 := lt_max_of_lt_right one_pos
  unfold clampMean
  rw [div_eq_zero_iff, or_iff_left hm.ne']
  have hs := Metrics.sum_nonneg l (fun x => v x * w x) hnn
  have hp := Metrics.sum_pos_iff l (fun x => v x * w x) hnn
  constructor
  · intro h x hx hwx
    by_contra hvx
    have : 0 < v x * w x := lt_of_le_of_ne (hnn x hx) (Ne.symm (mul_ne_zero hvx hwx))
    have := hp.2 ⟨x, hx, this⟩
    linarith
  · intro h
    by_contra hne
    obtain ⟨x, hx, hpos⟩ := hp.1 (lt_of_le_of_ne hs (Ne.symm hne))
    by_cases hwx : w x = 0
    · rw [hwx, mul_zero] at hpos
      exact lt_irrefl _ hpos
    · rw [h x hx hwx, zero_mul] at hpos
      exact lt_irrefl _ hpos

theorem rgbSq_nonneg (x : Pixel) : 0 ≤ rgbSq x := by
  unfold rgbSq chanMean
  refine div_nonneg (List.sum_nonneg ?_) (Nat.cast_nonneg _)
  intro y hy
  obtain ⟨i, hi, rfl⟩ := List.getElem_of_mem hy
  rw [List.getElem_zipWith]
  positivity

/-- The error of a pixel vanishes exactly for equal channels. -/
theorem rgbSq_zero (x : Pixel) (h : x.pred.length = x.gt.length) : rgbSq x = 0 ↔ x.pred = x.gt := by
  have key : ∀ a b : List ℝ, a.length = b.length → (0 ≤ (List.zipWith (fun a b => (a - b) ^ 2) a b).sum ∧ ((List.zipWith (fun a b => (a - b) ^ 2) a b).sum = 0 ↔ a = b)) := by
    intro a
    induction a with
    | nil =>
      intro b hb
      cases b with
      | nil => simp
      | cons y b => simp at hb
    | cons y a ih =>
      intro b hb
      cases b with
      | nil => simp at hb
      | cons z b =>
        obtain ⟨i1, i2⟩ := ih b (by simpa using hb)
        rw [List.zipWith_cons_cons, List.sum_cons]
        have hsq : 0 ≤ (y - z) ^ 2 := by positivity
        refine ⟨by linarith, ?_⟩
        constructor
        · intro he
          have h1 : (y - z) ^ 2 = 0 := by linarith
          have h2 : (List.zipWith (fun a b => (a - b) ^ 2) a b).sum = 0 := by linarith
          rw [i2.1 h2]
          have := pow_eq_zero_iff (two_ne_zero) |>.1 h1
          rw [sub_eq_zero.1 this]
        · intro he
          rw [List.cons.injEq] at he
          rw [i2.2 he.2, he.1]
          simp
  unfold rgbSq chanMean
  rw [div_eq_zero_iff, (key _ _ h).2]
  constructor
  · rintro (h1 | h1)
    · exact h1
    · have : x.pred.length = 0 := by exact_mod_cast h1
      exact (List.length_eq_zero_iff.1 this).trans (List.length_eq_zero_iff.1 (h.symm.trans this)).symm
  · exact fun h => Or.inl h

/-- Losses of images: an error for other numbers of channels; otherwise the squared error is zero exactly if prediction and image agree inside the crop, the foreground error exactly if they agree on the foreground inside it, and neither depends on anything else. -/
theorem rgbMetrics_spec (c c' : Nat) (s : ℝ) (l : List Pixel) (hl : ∀ x ∈ l, x.pred.length = x.gt.length ∧ 0 ≤ x.crop ∧ 0 ≤ x.mask) :
    (c ≠ c' → rgbMetrics c c' s l = .error .value)
      ∧ (c = c' → ∃ r, rgbMetrics c c' s l = .ok r ∧ 0 ≤ r.mse ∧ (r.mse = 0 ↔ ∀ x ∈ l, x.crop ≠ 0 → x.pred = x.gt)
        ∧ (r.mseFg = 0 ↔ ∀ x ∈ l, x.crop ≠ 0 → x.mask ≠ 0 → x.pred = x.gt)) := by
  refine ⟨fun h => by unfold rgbMetrics; rw [if_pos h], fun h => ?_⟩
  unfold rgbMetrics
  rw [if_neg (by simpa using h)]
  refine ⟨_, rfl, clampMean_nonneg _ _ _ (fun x _ => rgbSq_nonneg x) (fun x hx => (hl x hx).2.1), ?_, ?_⟩
  · show clampMean rgbSq Pixel.crop l = 0 ↔ _
    rw [clampMean_zero _ _ _ (fun x _ => rgbSq_nonneg x) (fun x hx => (hl x hx).2.1)]
    exact forall_congr' fun x => forall_congr' fun hx => imp_congr_right fun _ => rgbSq_zero x (hl x hx).1
  · show clampMean rgbSq (fun x => x.crop * x.mask) l = 0 ↔ _
    rw [clampMean_zero _ _ _ (fun x _ => rgbSq_nonneg x) (fun x hx => mul_nonneg (hl x hx).2.1 (hl x hx).2.2)]
    refine forall_congr' fun x => forall_congr' fun hx => ?_
    rw [rgbSq_zero x (hl x hx).1, mul_ne_zero_iff, and_imp]

/-- Without crop masks the squared error is the mean over all pixels and channels. -/
theorem mse_mean (C : Nat) (s : ℝ) (l : List Pixel) (hl : l ≠ []) (h1 : ∀ x ∈ l, x.crop = 1 ∧ x.pred.length = C) :
    ∃ r, rgbMetrics C C s l = .ok r ∧ r.mse = (l.map fun x => (List.zipWith (fun a b => (a - b) ^ 2) x.pred x.gt).sum).sum / (l.length * C) := by
  unfold rgbMetrics
  rw [if_neg (by simp)]
  refine ⟨_, rfl, ?_⟩
  show clampMean rgbSq Pixel.crop l = _
  have hw : (l.map Pixel.crop).sum = l.length := by
    rw [List.map_congr_left fun x hx => (h1 x hx).1]
    simp
  have hlen : (1 : ℝ) ≤ l.length := by
    have : 0 < l.length := List.length_pos_iff.2 hl
    exact_mod_cast this
  unfold clampMean
  rw [hw, max_eq_left hlen]
  have : (l.map fun x => rgbSq x * x.crop) = l.map fun x => (1 / (C : ℝ)) * (List.zipWith (fun a b => (a - b) ^ 2) x.pred x.gt).sum := by
    refine List.map_congr_left fun x hx => ?_
    rw [(h1 x hx).1, mul_one]
    unfold rgbSq chanMean
    rw [(h1 x hx).2]
    ring
  rw [this, Metrics.sum_mul]
  rw [div_mul_eq_mul_div, one_mul, div_div, mul_comm (C : ℝ)]

theorem mean_nonneg {l : List ℝ} (h : ∀ x ∈ l, 0 ≤ x) : 0 ≤ mean l := div_nonneg (List.sum_nonneg h) (Nat.cast_nonneg _)

theorem mean_zero {l : List ℝ} (h : ∀ x ∈ l, 0 ≤ x) : mean l = 0 ↔ ∀ x ∈ l, x = 0 := by
  have hs := Metrics.sum_pos_iff l (fun x => x) h
  have h0 := Metrics.sum_nonneg l (fun x => x) h
  rw [List.map_id'] at hs h0
  unfold mean
  constructor
  · intro he x hx
    by_contra hne
    have h1 : 0 < l.sum := hs.2 ⟨x, hx, lt_of_le_of_ne (h x hx) (Ne.symm hne)⟩
    have h2 : (0 : ℝ) < l.length := by
      have : 0 < l.length := List.length_pos_of_mem hx
      exact_mod_cast this
    have := div_pos h1 h2
    linarith
  · intro he
    have : ¬ 0 < l.sum := fun h1 => by
      obtain ⟨x, hx, hpos⟩ := hs.1 h1
      rw [he x hx] at hpos
      exact lt_irrefl _ hpos
    rw [le_antisymm (not_lt.1 this) h0, zero_div]

/-- The eikonal loss is zero exactly if all gradients have length one. -/
theorem eikonal_zero (l : List (List ℝ)) : 0 ≤ eikonal l ∧ (eikonal l = 0 ↔ ∀ g ∈ l, (g.map fun x => x ^ 2).sum = 1) := by
  have hnn : ∀ x ∈ l.map fun g => (Real.sqrt ((g.map fun x => x ^ 2).sum) - 1) ^ 2, 0 ≤ x := by
    intro x hx
    obtain ⟨g, _, rfl⟩ := List.mem_map.1 hx
    positivity
  refine ⟨mean_nonneg hnn, ?_⟩
  unfold eikonal
  rw [mean_zero hnn, List.forall_mem_map]
  refine forall_congr' fun g => imp_congr_right fun _ => ?_
  rw [pow_eq_zero_iff two_ne_zero, sub_eq_zero, Real.sqrt_eq_one]

/-- The penalty on depths is zero exactly if none is negative. -/
theorem depthNeg_zero (l : List ℝ) : 0 ≤ depthNeg l ∧ (depthNeg l = 0 ↔ ∀ d ∈ l, 0 ≤ d) := by
  have hnn : ∀ x ∈ l.map fun d => (min d 0) ^ 2, 0 ≤ x := by
    intro x hx
    obtain ⟨g, _, rfl⟩ := List.mem_map.1 hx
    positivity
  refine ⟨mean_nonneg hnn, ?_⟩
  unfold depthNeg
  rw [mean_zero hnn, List.forall_mem_map]
  refine forall_congr' fun d => imp_congr_right fun _ => ?_
  rw [pow_eq_zero_iff two_ne_zero, min_eq_right_iff]

theorem inner_length (a b c : Nat) : (inner a b c).length = (a - 1) * ((b - 1) * (c - 1)) := by
  unfold inner
  simp [List.length_flatMap]

/-- The total variation of a grid is at least `sqrt(1e-5)`, also for a constant grid. -/
theorem gridTv_ge (a b c : Nat) (grid : Nat → Nat → Nat → ℝ) (ha : 1 < a) (hb : 1 < b) (hc : 1 < c) :
    Real.sqrt (1 / 10 ^ 5) ≤ gridTv a b c grid ∧ ((∀ i j k, grid i j k = grid 0 0 0) → gridTv a b c grid = Real.sqrt (1 / 10 ^ 5)) := by
  have hlen : (0 : ℝ) < (inner a b c).length := by
    rw [inner_length]
    have h1 : 0 < a - 1 := by omega
    have h2 : 0 < b - 1 := by omega
    have h3 : 0 < c - 1 := by omega
    exact_mod_cast Nat.mul_pos h1 (Nat.mul_pos h2 h3)
  have hterm : ∀ g gx gy gz : ℝ, Real.sqrt (1 / 10 ^ 5) ≤ tvTerm g gx gy gz := fun g gx gy gz =>
    Real.sqrt_le_sqrt (le_add_of_nonneg_left (le_max_right _ _))
  unfold gridTv mean
  dsimp only
  rw [List.length_map]
  refine ⟨?_, fun h => ?_⟩
  · rw [le_div_iff₀ hlen, mul_comm, ← Metrics.sum_const (inner a b c)]
    exact Metrics.sum_le _ _ _ fun p _ => hterm _ _ _ _
  · rw [div_eq_iff hlen.ne', mul_comm, ← Metrics.sum_const (inner a b c)]
    refine Metrics.sum_congr _ _ _ fun p _ => ?_
    unfold tvTerm
    rw [h p.1 p.2.1 (p.2.2 + 1), h p.1 (p.2.1 + 1) p.2.2, h (p.1 + 1) p.2.1 p.2.2, h p.1 p.2.1 p.2.2]
    simp

/-- Only the cells below the last along every axis start a difference: changing the corner of the last planes changes nothing. -/
theorem gridTv_corner (a b c : Nat) (grid grid' : Nat → Nat → Nat → ℝ)
    (h : ∀ i j k, (i + 1 < a ∧ j + 1 < b ∧ k < c) ∨ (i + 1 < a ∧ j < b ∧ k + 1 < c) ∨ (i < a ∧ j + 1 < b ∧ k + 1 < c) → grid i j k = grid' i j k) :
    gridTv a b c grid = gridTv a b c grid' := by
  unfold gridTv
  dsimp only
  congr 1
  refine List.map_congr_left fun p hp => ?_
  unfold inner at hp
  simp only [List.mem_flatMap, List.mem_map, List.mem_range] at hp
  obtain ⟨i, hi, j, hj, k, hk, rfl⟩ := hp
  dsimp only
  rw [h i j k (by omega), h (i + 1) j k (by omega), h i (j + 1) k (by omega), h i j (k + 1) (by omega)]

/-- All stages' metrics, none overwritten: stage `k` has the prefix followed by `k` times "prev_stage_". -/
theorem forward_spec : ∀ (st : List (List (Str × V))) (pre : Str), (∀ s ∈ st, ∀ p ∈ s, ¬ "prev_stage_".toList <+: p.1) →
    ∀ k v, (k, v) ∈ forward pre st ↔ ∃ i s n, st[i]? = some s ∧ (n, v) ∈ s ∧ k = pre ++ (List.replicate i "prev_stage_".toList).flatten ++ n
  | [], pre, _, k, v => by simp [forward]
  | s :: st, pre, h, k, v => by
    have ih := forward_spec st (pre ++ "prev_stage_".toList) (fun t ht => h t (List.mem_cons_of_mem _ ht))
    unfold forward update
    rw [List.mem_append, List.mem_filter, ih]
    have hnot : ∀ n, (∃ v, (n, v) ∈ s) → pre ++ n ∉ (forward (pre ++ "prev_stage_".toList) st).map Prod.fst := by
      rintro n ⟨v, hn⟩ hm
      obtain ⟨⟨k', v'⟩, hk', he⟩ := List.mem_map.1 hm
      obtain ⟨i, t, m, _, _, hk⟩ := (ih k' v').1 hk'
      dsimp only at he
      rw [he, List.append_assoc, List.append_assoc] at hk
      exact h s List.mem_cons_self _ hn ⟨_, (List.append_cancel_left hk).symm⟩
    constructor
    · rintro (⟨h1, _⟩ | ⟨i, t, n, h1, h2, h3⟩)
      · obtain ⟨⟨n, v'⟩, hn, he⟩ := List.mem_map.1 h1
        cases he
        exact ⟨0, s, n, rfl, hn, by simp⟩
      · refine ⟨i + 1, t, n, h1, h2, ?_⟩
        rw [h3, List.replicate_succ, List.flatten_cons]
        simp only [List.append_assoc]
    · rintro ⟨i, t, n, h1, h2, h3⟩
      cases i with
      | zero =>
        have h1 : s = t := by simpa using h1
        subst h1
        have h3 : k = pre ++ n := by simpa using h3
        refine Or.inl ⟨List.mem_map.2 ⟨(n, v), h2, by rw [h3]⟩, ?_⟩
        rw [h3]
        exact decide_eq_true (hnot n ⟨v, h2⟩)
      | succ i =>
        refine Or.inr ⟨i, t, n, h1, h2, ?_⟩
        rw [h3, List.replicate_succ, List.flatten_cons]
        simp only [List.append_assoc]

example : forward "loss_".toList [[("a".toList, 1), ("b".toList, 2)], [("a".toList, 3)]]
    = [("loss_a".toList, 1), ("loss_b".toList, 2), ("loss_prev_stage_a".toList, 3)] := by decide +kernel

end P3D.ViewMetrics
