/-
Model of the ray point refiner and the multi-pass renderer of implicitron.

* `implicitron/models/renderer/ray_point_refiner.py:47-146` (RayPointRefiner, apply_blurpool_on_weights)
* `renderer/implicit/sample_pdf.py:14-67` (sample_pdf; the C++ part is in SamplePdf.lean)
* `implicitron/models/renderer/multipass_ea.py:86-186` (MultiPassEmissionAbsorptionRenderer)

One ray.  The random numbers (or the equally spaced ones) of `sample_pdf` are arguments.  The arguments
`blurpool_weights` and `sample_pdf_padding` of `RayPointRefiner.forward` are not used by the code (the fields of the
object are) and do not appear.  Not modelled: rounding, gradients, `return_weights`, noise.
-/
import Verif.ImpRaymarch

set_option linter.unusedSectionVars false

namespace P3D.RayRefine

open P3D.ImpRaymarch
open P3D.SamplePdf (Row sampleCpu)

variable {K : Type} [Field K] [LinearOrder K] [IsStrictOrderedRing K]

/-- An `ImplicitronRayBundle`: the lengths, or the bins with the lengths as middles
(`implicitron/models/renderer/base.py:100-170`). -/
inductive Bundle (K : Type)
  | lengths (z : List K)
  | bins (b : List K)

/-- `torch.lerp (z[1:], z[:-1], 0.5)`. -/
def mids (z : List K) : List K := List.zipWith (fun a b => a + (b - a) / 2) z z.tail

/-- `lengths`. -/
def Bundle.pts : Bundle K → List K
  | .lengths z => z
  | .bins b => mids b

/-- `lengths`, or `bins` if there are. -/
def Bundle.vals : Bundle K → List K
  | .lengths z => z
  | .bins b => b

/-- `ray_deltas`, `multipass_ea.py:159-161`. -/
def Bundle.rayDeltas : Bundle K → Option (List K)
  | .lengths _ => none
  | .bins b => some (diffs b)

/-- `apply_blurpool_on_weights`, `ray_point_refiner.py:124-146`. -/
def blurpool (w : List K) : List K :=
  let pad := w.take 1 ++ w ++ w.drop (w.length - 1)
  let mx := List.zipWith max pad pad.tail
  List.zipWith (fun a b => a + (b - a) / 2) mx mx.tail

/-- `sample_pdf`, `sample_pdf.py:40-67`. -/
def samplePdf (bins w : List K) (n : Nat) (eps : K) (u : Nat → K) : Except Err (List K) :=
  if w = [] then .error .empty
  else if w.any fun x => decide (x ≤ -eps) then .error .negative
  else if w.length + 1 ≠ bins.length then .error .shape
  else .ok ((List.range n).map fun i =>
    sampleCpu { n := w.length, w := fun k => w.getD k 0, b := fun k => bins.getD k 0 } eps (u i))

/-- The settings of `RayPointRefiner`, `ray_point_refiner.py:47-53`. -/
structure Refiner (K : Type) where
  nPts : Nat
  addInput : Bool := true
  blur : Bool := false
  eps : K

/-- `torch.sort`. -/
def sort (l : List K) : List K := l.mergeSort fun a b => decide (a ≤ b)

/-- The new points, `ray_point_refiner.py:86-106`. -/
def newPts (r : Refiner K) (b : Bundle K) (w : List K) (u : Nat → K) : Except Err (List K) :=
  let w := if r.blur then blurpool w else w
  match b with
  | .lengths z => samplePdf (mids z) ((w.drop 1).take (w.length - 2)) r.nPts r.eps u
  | .bins e => samplePdf e w (r.nPts + 1) r.eps u

/-- `RayPointRefiner.forward`, `ray_point_refiner.py:55-121`. -/
def refine (r : Refiner K) (b : Bundle K) (w : List K) (u : Nat → K) : Except Err (Bundle K) :=
  match newPts r b w u with
  | .error e => .error e
  | .ok s =>
    let z := sort (if r.addInput then b.vals ++ s else s)
    .ok (match b with
      | .lengths _ => .lengths z
      | .bins _ => .bins z)

/-! ### The blur -/

theorem blurpool_length (w : List K) : (blurpool w).length = w.length := by
  rcases w with _ | ⟨a, w⟩
  · rfl
  · simp [blurpool]

/-- Value at a position, the ends are repeated. -/
def at' (w : List K) (i : Nat) : K := w.getD (min i (w.length - 1)) 0

/-- **The blur**: the mean of the maxima with both neighbours, where the ends are repeated; -/
theorem blurpool_get (w : List K) (i : Nat) (hi : i < w.length) :
    (blurpool w)[i]? = some ((max (at' w (i - 1)) (at' w i) + max (at' w i) (at' w (i + 1))) / 2) := by
  have hpad : ∀ k, k < w.length + 2 →
      (w.take 1 ++ w ++ w.drop (w.length - 1))[k]? = some (at' w (k - 1)) := by
    intro k hk
    have h1 : (w.take 1).length = 1 := by simp; omega
    have h2 : (w.drop (w.length - 1)).length = 1 := by simp; omega
    rw [List.append_assoc]
    rcases Nat.eq_zero_or_pos k with rfl | hk0
    · rw [List.getElem?_append_left (by omega), List.getElem?_take_of_lt (by omega)]
      rw [at', List.getD_eq_getElem?_getD, show min (0 - 1) (w.length - 1) = 0 by omega,
        List.getElem?_eq_getElem (by omega)]
      rfl
    · rw [List.getElem?_append_right (by omega), h1]
      by_cases hk1 : k - 1 < w.length
      · rw [List.getElem?_append_left hk1, at', List.getD_eq_getElem?_getD,
          show min (k - 1) (w.length - 1) = k - 1 by omega, List.getElem?_eq_getElem hk1]
        rfl
      · rw [List.getElem?_append_right (by omega), List.getElem?_drop, at', List.getD_eq_getElem?_getD,
          show min (k - 1) (w.length - 1) = w.length - 1 by omega,
          show w.length - 1 + (k - 1 - w.length) = w.length - 1 by omega,
          List.getElem?_eq_getElem (by omega)]
        rfl
  unfold blurpool
  generalize w.take 1 ++ w ++ w.drop (w.length - 1) = pad at hpad
  dsimp only
  have hm : ∀ k, k < w.length + 1 → (List.zipWith max pad pad.tail)[k]? = some (max (at' w (k - 1)) (at' w k)) := by
    intro k hk
    rw [List.getElem?_zipWith, List.getElem?_tail, hpad k (by omega), hpad (k + 1) (by omega)]
    simp
  rw [List.getElem?_zipWith, List.getElem?_tail, hm i (by omega), hm (i + 1) (by omega)]
  simp only [Nat.add_sub_cancel]
  congr 1; ring

/-- an upper envelope of the weights, with values not larger than the largest weight. -/
theorem blurpool_envelope (w : List K) (i : Nat) (x y : K) (hx : w[i]? = some x) (hy : (blurpool w)[i]? = some y) :
    x ≤ y ∧ ∀ m, (∀ v ∈ w, v ≤ m) → y ≤ m := by
  have hi := (List.getElem?_eq_some_iff.1 hx).1
  rw [blurpool_get w i hi] at hy
  have hat : at' w i = x := by
    rw [at', List.getD_eq_getElem?_getD, show min i (w.length - 1) = i by omega, hx]; rfl
  have hy := (Option.some.inj hy).symm
  refine ⟨?_, fun m hm => ?_⟩
  · rw [hy, ← hat]
    have h1 := le_max_right (at' w (i - 1)) (at' w i)
    have h2 := le_max_left (at' w i) (at' w (i + 1))
    linarith
  · have hall : ∀ k, at' w k ≤ m := by
      intro k
      rw [at', List.getD_eq_getElem?_getD, List.getElem?_eq_getElem (by omega)]
      exact hm _ (List.getElem_mem _)
    have h1 := max_le (hall (i - 1)) (hall i)
    have h2 := max_le (hall i) (hall (i + 1))
    rw [hy]; linarith

theorem blurpool_nonneg (w : List K) (h : ∀ x ∈ w, 0 ≤ x) : ∀ x ∈ blurpool w, 0 ≤ x := by
  intro y hy
  obtain ⟨i, hi, rfl⟩ := List.getElem_of_mem hy
  have hw : i < w.length := by rwa [blurpool_length] at hi
  exact (h w[i] (List.getElem_mem _)).trans
    (blurpool_envelope w i w[i] _ (List.getElem?_eq_getElem hw) (List.getElem?_eq_getElem hi)).1

/-! ### Refinement -/

theorem sort_perm (l : List K) : (sort l).Perm l := List.mergeSort_perm _ _

theorem sort_sorted (l : List K) : (sort l).Pairwise (· ≤ ·) := by
  have := List.pairwise_mergeSort (le := fun a b : K => decide (a ≤ b))
    (fun a b c h1 h2 => by simp only [decide_eq_true_eq] at *; exact h1.trans h2)
    (fun a b => by simp only [Bool.or_eq_true, decide_eq_true_eq]; exact le_total a b) l
  exact this.imp fun h => by simpa using h

theorem mids_length (z : List K) : (mids z).length = z.length - 1 := by simp [mids]

theorem mids_get (z : List K) (i : Nat) (h : i + 1 < z.length) :
    (mids z)[i]? = some ((z[i] + z[i + 1]) / 2) := by
  rw [mids, List.getElem?_zipWith, List.getElem?_tail, List.getElem?_eq_getElem (by omega),
    List.getElem?_eq_getElem h]
  simp only
  congr 1; ring

theorem mids_mem (z : List K) (lo hi : K) (h : ∀ x ∈ z, lo ≤ x ∧ x ≤ hi) : ∀ x ∈ mids z, lo ≤ x ∧ x ≤ hi := by
  intro x hx
  obtain ⟨i, hi', rfl⟩ := List.getElem_of_mem hx
  have h2 : i + 1 < z.length := by rw [mids_length] at hi'; omega
  have := mids_get z i h2
  rw [List.getElem?_eq_getElem hi'] at this
  rw [Option.some.inj this]
  have h3 := h z[i] (List.getElem_mem _)
  have h4 := h z[i + 1] (List.getElem_mem _)
  constructor <;> linarith

theorem mids_sorted (z : List K) (h : z.Pairwise (· ≤ ·)) : (mids z).Pairwise (· ≤ ·) := by
  rw [List.pairwise_iff_getElem] at h ⊢
  intro i j hi hj hij
  have h1 : i + 1 < z.length := by rw [mids_length] at hi; omega
  have h2 : j + 1 < z.length := by rw [mids_length] at hj; omega
  have e1 := mids_get z i h1
  have e2 := mids_get z j h2
  rw [List.getElem?_eq_getElem hi] at e1
  rw [List.getElem?_eq_getElem hj] at e2
  rw [Option.some.inj e1, Option.some.inj e2]
  have h3 := h i j (by omega) (by omega) hij
  have h4 := h (i + 1) (j + 1) (by omega) (by omega) (by omega)
  linarith

/-- Sampling inside of sorted bins with non-negative weights. -/
theorem samplePdf_ok (bins w : List K) (n : Nat) (eps : K) (he : 0 < eps) (u : Nat → K) (hu : ∀ i, 0 ≤ u i)
    (hw : ∀ x ∈ w, 0 ≤ x) (hne : w ≠ []) (hl : w.length + 1 = bins.length) (hb : bins.Pairwise (· ≤ ·))
    : ∃ s, samplePdf bins w n eps u = .ok s ∧ s.length = n ∧
      ∀ lo hi, (∀ x ∈ bins, lo ≤ x ∧ x ≤ hi) → ∀ x ∈ s, lo ≤ x ∧ x ≤ hi := by
  have hneg : ¬ (w.any fun x => decide (x ≤ -eps)) = true := by
    simp only [List.any_eq_true, decide_eq_true_eq, not_exists, not_and, not_le]
    intro x hx; linarith [hw x hx]
  refine ⟨_, by rw [samplePdf, if_neg hne, if_neg hneg, if_neg (by simp [hl])], by simp, ?_⟩
  intro lo hi hr x hx
  obtain ⟨i, -, rfl⟩ := List.mem_map.1 hx
  have hD : ∀ k, k < bins.length → bins.getD k 0 ∈ bins := fun k hk => by
    rw [List.getD_eq_getElem?_getD, List.getElem?_eq_getElem hk]; exact List.getElem_mem _
  have hok : ({ n := w.length, w := fun k => w.getD k 0, b := fun k => bins.getD k 0 } : Row K).Ok := by
    refine ⟨List.length_pos_of_ne_nil hne, fun k hk => ?_, fun k hk => ?_⟩
    · dsimp only at hk ⊢
      rw [List.getD_eq_getElem?_getD, List.getElem?_eq_getElem hk]; exact hw _ (List.getElem_mem _)
    · dsimp only at hk ⊢
      rw [List.getD_eq_getElem?_getD, List.getD_eq_getElem?_getD, List.getElem?_eq_getElem (by omega),
        List.getElem?_eq_getElem (by omega)]
      exact List.pairwise_iff_getElem.1 hb k (k + 1) (by omega) (by omega) (by omega)
  obtain ⟨-, h1, h2⟩ := SamplePdf.sample_mem hok he.le (hu i)
  exact ⟨(hr _ (hD 0 (by omega))).1.trans h1, h2.trans (hr _ (hD w.length (by omega))).2⟩

/-- The edges used for sampling: the middles of the lengths, or the bins. -/
def Bundle.edges : Bundle K → List K
  | .lengths z => mids z
  | .bins e => e

/-- Are there bins? -/
def Bundle.isBins : Bundle K → Bool
  | .lengths _ => false
  | .bins _ => true

/-- Number of points which are added. -/
def extra (r : Refiner K) (b : Bundle K) : Nat := if b.isBins then r.nPts + 1 else r.nPts

/-- A sorted ray between `lo` and `hi`, of at least three lengths or two bin edges. -/
structure Bundle.Good (b : Bundle K) (lo hi : K) : Prop where
  sorted : b.vals.Pairwise (· ≤ ·)
  range : ∀ x ∈ b.vals, lo ≤ x ∧ x ≤ hi
  enough : (if b.isBins then 2 else 3) ≤ b.vals.length

/-- **Refinement.**  For a sorted ray with non-negative weights, a number for every point: there is a
result; it is a bundle of the same kind, sorted, of `n_pts_per_ray` new points (one more for bins) and
the old ones, if asked for; all new points lie between the first and the last middle of the lengths, or between
the first and the last bin edge. -/
theorem refine_ok (r : Refiner K) (he : 0 < r.eps) (b : Bundle K) (lo hi : K) (hb : b.Good lo hi) (w : List K)
    (hl : w.length = b.pts.length) (hw : ∀ x ∈ w, 0 ≤ x) (u : Nat → K) (hu : ∀ i, 0 ≤ u i) :
    ∃ s c, refine r b w u = .ok c ∧ s.length = extra r b ∧
      c.vals.Perm (if r.addInput then b.vals ++ s else s) ∧ c.vals.Pairwise (· ≤ ·) ∧
      (∀ lo hi, (∀ x ∈ b.edges, lo ≤ x ∧ x ≤ hi) → ∀ x ∈ s, lo ≤ x ∧ x ≤ hi) ∧
      (∀ x ∈ c.vals, lo ≤ x ∧ x ≤ hi) ∧ c.isBins = b.isBins := by
  have hWl : (if r.blur then blurpool w else w).length = w.length := by split <;> simp [blurpool_length]
  have hWn : ∀ x ∈ (if r.blur then blurpool w else w), 0 ≤ x := by
    split
    · exact blurpool_nonneg w hw
    · exact hw
  have key : ∃ s, newPts r b w u = .ok s ∧ s.length = extra r b ∧
      ∀ lo hi, (∀ x ∈ b.edges, lo ≤ x ∧ x ≤ hi) → ∀ x ∈ s, lo ≤ x ∧ x ≤ hi := by
    unfold newPts
    dsimp only
    generalize (if r.blur then blurpool w else w) = W at hWl hWn
    have hen := hb.enough
    cases b with
    | lengths z =>
      simp only [Bundle.isBins, Bundle.vals, Bool.false_eq_true, if_false] at hen
      simp only [Bundle.pts] at hl
      have hne : (W.drop 1).take (W.length - 2) ≠ [] := by
        rw [← List.length_pos_iff_ne_nil]; simp; omega
      exact samplePdf_ok (mids z) _ r.nPts r.eps he u hu
        (fun x hx => hWn x (List.mem_of_mem_drop (List.mem_of_mem_take hx))) hne
        (by rw [mids_length, List.length_take, List.length_drop]; omega) (mids_sorted z hb.sorted)
    | bins e =>
      simp only [Bundle.isBins, Bundle.vals, if_true] at hen
      simp only [Bundle.pts, mids_length] at hl
      exact samplePdf_ok e W (r.nPts + 1) r.eps he u hu hWn
        (by rw [← List.length_pos_iff_ne_nil]; omega) (by omega) hb.sorted
  obtain ⟨s, h1, h2, h3⟩ := key
  have hedge : ∀ x ∈ b.edges, lo ≤ x ∧ x ≤ hi := by
    cases b with
    | lengths z => exact mids_mem z lo hi hb.range
    | bins e => exact hb.range
  have hs := h3 lo hi hedge
  have hall : ∀ x ∈ (if r.addInput then b.vals ++ s else s), lo ≤ x ∧ x ≤ hi := by
    intro x hx
    split at hx
    · rcases List.mem_append.1 hx with h | h
      · exact hb.range x h
      · exact hs x h
    · exact hs x hx
  refine ⟨s, _, by rw [refine, h1], h2, ?_⟩
  cases b with
  | lengths z =>
    exact ⟨sort_perm _, sort_sorted _, h3, fun x hx => hall x ((sort_perm _).mem_iff.1 hx), rfl⟩
  | bins e =>
    exact ⟨sort_perm _, sort_sorted _, h3, fun x hx => hall x ((sort_perm _).mem_iff.1 hx), rfl⟩

/-- **Errors**: less than three lengths, or a negative weight of a point which is not the first or last one. -/
theorem refine_error (r : Refiner K) (hb : r.blur = false) (z w : List K) (hl : w.length = z.length) (u : Nat → K)
    (h : z.length < 3 ∨ ∃ x ∈ (w.drop 1).take (w.length - 2), x ≤ -r.eps) :
    ∃ e, refine r (.lengths z) w u = .error e := by
  have : ∃ e, newPts r (.lengths z) w u = .error e := by
    simp only [newPts, hb, Bool.false_eq_true, if_false]
    rcases h with h | ⟨x, hx, hle⟩
    · refine ⟨.empty, if_pos ?_⟩
      rw [show w.length - 2 = 0 by omega, List.take_zero]
    · refine ⟨.negative, ?_⟩
      rw [samplePdf, if_neg (List.ne_nil_of_mem hx), if_pos]
      exact List.any_eq_true.2 ⟨x, hx, by simpa using hle⟩
  obtain ⟨e, he⟩ := this
  exact ⟨e, by rw [refine, he]⟩

/-! ### Several passes -/

/-- An implicit function: densities and features of the points of a ray. -/
abbrev Fn (K : Type) (C : Nat) := Bundle K → List K × List (Fin C → K)

/-- `_run_raymarcher`, `multipass_ea.py:148-186`: the outputs, the last one first (`prev_stage` is the tail), with the
points used.  `u` gives the numbers of `sample_pdf` for every stage, counted by the functions left. -/
def run {C : Nat} (c : Cfg K) (r : Refiner K) (u : Nat → Nat → K) :
    List (Fn K C) → Bundle K → List (Bundle K × Output K C) → Except Err (List (Bundle K × Output K C))
  | [], _, _ => .error .empty
  | f :: fs, b, prev =>
    match forward c (f b).1 (f b).2 b.pts b.rayDeltas with
    | .error e => .error e
    | .ok o =>
      match fs with
      | [] => .ok ((b, o) :: prev)
      | g :: gs =>
        match refine r b o.weights (u gs.length) with
        | .error e => .error e
        | .ok b' => run c r u (g :: gs) b' ((b, o) :: prev)

/-- The number of points at a stage. -/
def count (r : Refiner K) (b : Bundle K) (k : Nat) : Nat :=
  if k = 0 then b.vals.length else if r.addInput then b.vals.length + k * extra r b else extra r b

/-- An implicit function which gives as many densities and features as there are points. -/
def Sized {C : Nat} (f : Fn K C) : Prop := ∀ b, (f b).1.length = b.pts.length ∧ (f b).2.length = b.pts.length

/-- What the raymarcher has to do: weights which are not negative. -/
def NonNeg (c : Cfg K) : Prop := ∀ wd : List K, (∀ a ∈ wd, 0 ≤ a) → ∀ w ∈ weights c wd, 0 ≤ w

theorem pts_length (b : Bundle K) : b.pts.length = if b.isBins then b.vals.length - 1 else b.vals.length := by
  cases b with
  | lengths z => rfl
  | bins e => simp [Bundle.pts, Bundle.isBins, Bundle.vals, mids_length]

theorem deltas_length (c : Cfg K) (b : Bundle K) (h : 2 ≤ b.vals.length) :
    (deltas c b.pts b.rayDeltas).length = b.pts.length := by
  cases b with
  | lengths z =>
    simp only [Bundle.vals] at h
    simp only [deltas, Bundle.pts, Bundle.rayDeltas, List.length_append, diffs_length]
    split
    · rw [List.length_drop, diffs_length]; omega
    · simp; omega
  | bins e => simp [deltas, Bundle.pts, Bundle.rayDeltas, diffs_length, mids_length]

theorem pts_sorted (b : Bundle K) (h : b.vals.Pairwise (· ≤ ·)) : b.pts.Pairwise (· ≤ ·) := by
  cases b with
  | lengths z => exact h
  | bins e => exact mids_sorted e h

theorem pts_range (b : Bundle K) (lo hi : K) (h : ∀ x ∈ b.vals, lo ≤ x ∧ x ≤ hi) : ∀ x ∈ b.pts, lo ≤ x ∧ x ≤ hi := by
  cases b with
  | lengths z => exact h
  | bins e => exact mids_mem e lo hi h

/-- One pass over a good bundle. -/
theorem pass_ok {C : Nat} (c : Cfg K) (hc : NonNeg c) (hbg : 0 ≤ c.bgOpacity) (hre : c.relu = true)
    (hch : c.bg.length = 1 ∨ c.bg.length = C) (f : Fn K C) (hf : Sized f) (b : Bundle K) (lo hi : K)
    (hb : b.Good lo hi) :
    ∃ o, forward c (f b).1 (f b).2 b.pts b.rayDeltas = .ok o ∧ o.weights.length = b.pts.length ∧
      ∀ w ∈ o.weights, 0 ≤ w := by
  have hv : 2 ≤ b.vals.length := by have := hb.enough; split at this <;> omega
  have hp : 0 < b.pts.length := by
    rw [pts_length]; have := hb.enough; split at this <;> simp_all <;> omega
  obtain ⟨h1, h2⟩ := hf b
  have hfit : Fits c (f b).1 (f b).2 b.pts b.rayDeltas :=
    ⟨by rw [← List.length_pos_iff_ne_nil]; omega, by omega, by omega,
      by rw [deltas_length c b hv, h1], hch⟩
  refine ⟨_, forward_ok c _ _ _ _ hfit, ?_, ?_⟩
  · rw [weights_length, weighted_length _ _ _ _ hfit.hrd, h1]
  · refine hc _ (weighted_nonneg c hbg _ _ (pts_sorted b hb.sorted) _ (fun d hd => ?_) (Or.inl hre))
    cases b with
    | lengths z => simp [Bundle.rayDeltas] at hd
    | bins e =>
      simp only [Bundle.rayDeltas, Option.some.injEq] at hd
      rw [← hd]; exact diffs_nonneg e hb.sorted

/-- **Several passes.**  For a sorted ray (three lengths or two bin edges at least), a raymarcher with non-negative
weights which passes densities through ReLU, and implicit functions giving one density and feature per point: there is
a result with one output per implicit function, and at stage `k` the points are of the same kind, sorted, within the
range of the given ray, as many as expected and, if asked for, contain the points of all stages before. -/
theorem run_ok {C : Nat} (c : Cfg K) (hc : NonNeg c) (hbg : 0 ≤ c.bgOpacity) (hre : c.relu = true)
    (hch : c.bg.length = 1 ∨ c.bg.length = C) (r : Refiner K) (he : 0 < r.eps) (u : Nat → Nat → K)
    (hu : ∀ k i, 0 ≤ u k i) (fs : List (Fn K C)) (hfs : fs ≠ []) (hf : ∀ f ∈ fs, Sized f) (b : Bundle K) (lo hi : K)
    (hb : b.Good lo hi) (hn : r.addInput = true ∨ (if b.isBins then 1 else 3) ≤ r.nPts)
    (prev : List (Bundle K × Output K C)) :
    ∃ outs : List (Bundle K × Output K C), run c r u fs b prev = .ok (outs.reverse ++ prev) ∧ outs.length = fs.length ∧
      ∀ (k : Nat) (x : Bundle K × Output K C) (f : Fn K C), outs[k]? = some x → fs[k]? = some f →
        forward c (f x.1).1 (f x.1).2 x.1.pts x.1.rayDeltas = .ok x.2 ∧
        x.1.isBins = b.isBins ∧ x.1.Good lo hi ∧ x.1.vals.length = count r b k ∧
        (r.addInput = true → ∀ v ∈ b.vals, v ∈ x.1.vals) := by
  induction fs generalizing b prev with
  | nil => exact absurd rfl hfs
  | cons f fs ih =>
    obtain ⟨o, h1, h2, h3⟩ := pass_ok c hc hbg hre hch f (hf f List.mem_cons_self) b lo hi hb
    cases fs with
    | nil =>
      refine ⟨[(b, o)], by simp only [run, h1]; rfl, rfl, fun k x g hx hg => ?_⟩
      cases k with
      | zero =>
        simp only [List.getElem?_cons_zero, Option.some.injEq] at hx hg
        subst hx hg
        exact ⟨h1, rfl, hb, by simp [count], fun _ v hv => hv⟩
      | succ k => simp at hx
    | cons g gs =>
      obtain ⟨s, b', h4, h5, h6, h7, -, h8, h9⟩ := refine_ok r he b lo hi hb o.weights h2 h3 (u gs.length) (hu _)
      have hlen : b'.vals.length = count r b 1 := by
        rw [h6.length_eq, count, if_neg one_ne_zero]
        split <;> simp [h5]
      have hgood : b'.Good lo hi := by
        refine ⟨h7, h8, ?_⟩
        rw [h9, hlen, count, if_neg one_ne_zero]
        have := hb.enough
        by_cases ha : r.addInput = true
        · rw [if_pos ha]; omega
        · rw [if_neg ha]
          have := hn.resolve_left ha
          unfold extra
          split <;> simp_all
      obtain ⟨outs, h10, h11, h12⟩ := ih (by simp) (fun f' h => hf f' (List.mem_cons_of_mem _ h)) b' hgood
        (by rw [h9]; exact hn) ((b, o) :: prev)
      have hext : extra r b' = extra r b := by unfold extra; rw [h9]
      refine ⟨(b, o) :: outs, ?_, by simp [h11], fun k x f' hx hf' => ?_⟩
      · rw [run]
        simp only [h1, h4, h10]
        simp
      · cases k with
        | zero =>
          simp only [List.getElem?_cons_zero, Option.some.injEq] at hx hf'
          subst hx hf'
          exact ⟨h1, rfl, hb, by simp [count], fun _ v hv => hv⟩
        | succ k =>
          simp only [List.getElem?_cons_succ] at hx hf'
          obtain ⟨h13, h14, h15, h16, h17⟩ := h12 k x f' hx hf'
          refine ⟨h13, h14.trans h9, h15, ?_, fun ha v hv => h17 ha v (h6.mem_iff.2 (by rw [if_pos ha]; exact List.mem_append_left _ hv))⟩
          rw [h16]
          unfold count
          rw [hlen, hext]
          simp only [count, one_ne_zero, if_false, Nat.succ_ne_zero]
          by_cases ha : r.addInput = true
          · simp only [ha, if_true]
            split
            · simp_all
            · ring
          · simp only [ha]
            split <;> rfl

/-- Both raymarchers have weights which are not negative (emission-absorption for any thickness). -/
theorem ea_nonneg (c : Cfg ℝ) (hs : 0 < c.thickness) : NonNeg (ea c) := fun wd h => (ea_thick_sum c hs wd h).1

theorem cs_nonneg (c : Cfg K) (hs : c.thickness = 1) : NonNeg (cs c) := (cs_exact c hs).nonneg

/-- Without implicit functions the renderer raises. -/
theorem run_nil {C : Nat} (c : Cfg K) (r : Refiner K) (u : Nat → Nat → K) (b : Bundle K) :
    run (C := C) c r u [] b [] = .error .empty := rfl

/-! ### Examples -/

example : blurpool [0, 4, 0, (2 : ℚ)] = [2, 4, 3, 2] := by decide +kernel

example : mids [0, 1, 3, (4 : ℚ)] = [1/2, 2, 7/2] := by decide +kernel

example : (deltas (K := ℚ) { cap := id, weight := fun a _ => a, bgOpacity := 7 } [0, 1, (3 : ℚ)] none,
    deltas (K := ℚ) { cap := id, weight := fun a _ => a, bgOpacity := 7, replicate := true } [0, 1, (3 : ℚ)] none) =
    ([1, 2, 7], [1, 2, 2]) := by decide +kernel

example : weights (K := ℚ) (cs { cap := id, weight := fun a _ => a, bgOpacity := 0 }) [1/2, 1/4, 1/2, (1 : ℚ)] =
    [1/2, 1/4, 1/4, 0] := by decide +kernel

end P3D.RayRefine
