/-
Model of the raymarchers, the ray point refiner and the multi-pass renderer of implicitron.

* `implicitron/models/renderer/raymarcher.py:43-246` (AccumulativeRaymarcherBase,
  EmissionAbsorptionRaymarcher, CumsumRaymarcher)
* `implicitron/models/renderer/ray_point_refiner.py:47-146` (RayPointRefiner,
  apply_blurpool_on_weights)
* `implicitron/models/renderer/multipass_ea.py:127-186` (MultiPassEmissionAbsorptionRenderer)

One ray.  Numbers are elements of an ordered field, for the exponential real numbers; the random numbers
of `sample_pdf` are arguments.  Shapes which are not equal but can be broadcast count as errors.  Not modelled: rounding, the noise added to the densities during training,
negative values of `surface_thickness`, gradients.
-/
import Verif.SamplePdfProps
import Verif.RaymarchingProps
import Mathlib.Analysis.SpecialFunctions.Log.Basic
import Mathlib.Tactic.Linarith
import Mathlib.Tactic.FieldSimp
import Mathlib.Tactic.Ring

set_option linter.unusedSectionVars false

namespace P3D.ImpRaymarch

open P3D.SamplePdf (Row sampleCpu)

variable {K : Type} [Field K] [LinearOrder K] [IsStrictOrderedRing K]

/-! ### The raymarcher -/

/-- The settings, `raymarcher.py:79-84`, with `_capping_function` and `_weight_function` (`108-116`). -/
structure Cfg (K : Type) where
  cap : K → K
  weight : K → K → K
  thickness : Nat := 1
  bg : List K := []
  replicate : Bool := false
  bgOpacity : K
  relu : Bool := true
  blend : Bool := false

/-- Exceptions. -/
inductive Err
  /-- shapes of densities, features and lengths -/
  | shape
  /-- "Wrong number of background color channels." -/
  | background
  /-- an empty ray -/
  | empty
  /-- "Negative weights provided." -/
  | negative
  deriving DecidableEq

/-- The result, `raymarcher.py:210-216`. -/
structure Output (K : Type) (C : Nat) where
  features : Fin C → K
  depth : K
  mask : K
  weights : List K

/-- `torch.diff`. -/
def diffs (l : List K) : List K := List.zipWith (fun a b => b - a) l l.tail

/-- `deltas`, `raymarcher.py:162-173`. -/
def deltas (c : Cfg K) (lengths : List K) (rayDeltas : Option (List K)) : List K :=
  match rayDeltas with
  | some d => d
  | none => diffs lengths ++
      if c.replicate then (diffs lengths).drop ((diffs lengths).length - 1)
      else (lengths.take 1).map fun _ => c.bgOpacity

/-- `torch.cumsum`. -/
def cumsum (l : List K) : List K := (List.range l.length).map fun i => (l.take (i + 1)).sum

/-- `roll` and the assignment of ones, `raymarcher.py:193-196`. -/
def shifted (s : Nat) (l : List K) : List K :=
  (l.rotate (l.length - s % l.length)).mapIdx fun i x => if i < s then 1 else x

/-- `rays_opacities`, `raymarcher.py:189-191`. -/
def opacities (c : Cfg K) (wd : List K) : List K := (cumsum wd).map c.cap

/-- `weights`, `raymarcher.py:184-199`, from the weighted densities. -/
def weights (c : Cfg K) (wd : List K) : List K :=
  List.zipWith c.weight (wd.map c.cap) (shifted c.thickness ((opacities c wd).map fun o => -o + 1))

/-- `weighted_densities`, `raymarcher.py:175-184`. -/
def weighted (c : Cfg K) (dens lengths : List K) (rayDeltas : Option (List K)) : List K :=
  List.zipWith (· * ·) (deltas c lengths rayDeltas) (if c.relu then dens.map (max 0) else dens)

/-- The background colour of a channel, `raymarcher.py:204-208`. -/
def bgAt (bg : List K) (i : Nat) : K := if bg.length = 1 then bg.getD 0 0 else bg.getD i 0

/-- `AccumulativeRaymarcherBase.forward`, `raymarcher.py:120-216`, without noise. -/
def forward {C : Nat} (c : Cfg K) (dens : List K) (feats : List (Fin C → K)) (lengths : List K)
    (rayDeltas : Option (List K)) : Except Err (Output K C) :=
  if dens.length ≠ feats.length ∨ (deltas c lengths rayDeltas).length ≠ dens.length
      ∨ lengths.length ≠ dens.length then .error .shape
  else if c.bg.length ≠ 1 ∧ c.bg.length ≠ C then .error .background
  else
    let wd := weighted c dens lengths rayDeltas
    match (opacities c wd).getLast? with
    | none => .error .empty
    | some o =>
      let w := weights c wd
      let alpha := if c.blend then o else 1
      .ok {
        features := fun j => alpha * (List.zipWith (fun w f => w * f j) w feats).sum + (1 - o) * bgAt c.bg j
        depth := (List.zipWith (· * ·) w lengths).sum
        mask := o
        weights := w }

/-- `EmissionAbsorptionRaymarcher`, `raymarcher.py:219-232`. -/
noncomputable def ea (c : Cfg ℝ) : Cfg ℝ :=
  { c with cap := fun x => 1 - Real.exp (-x), weight := fun w a => w * a }

/-- `CumsumRaymarcher`, `raymarcher.py:235-246`. -/
def cs (c : Cfg K) : Cfg K := { c with cap := fun x => min x 1, weight := fun w a => min w a }

/-! ### Lists -/

theorem cumsum_length (l : List K) : (cumsum l).length = l.length := by simp [cumsum]

theorem cumsum_get (l : List K) (i : Nat) (h : i < l.length) : (cumsum l)[i]? = some ((l.take (i + 1)).sum) := by
  simp [cumsum, h]

theorem cumsum_last (l : List K) (h : l ≠ []) : (cumsum l).getLast? = some l.sum := by
  have hl : 0 < l.length := List.length_pos_of_ne_nil h
  rw [List.getLast?_eq_getElem?, cumsum_length, cumsum_get _ _ (by omega),
    show l.length - 1 + 1 = l.length by omega, List.take_length]

theorem shifted_length (s : Nat) (l : List K) : (shifted s l).length = l.length := by simp [shifted]

theorem shifted_get (s : Nat) (l : List K) (i : Nat) (h : i < l.length) :
    (shifted s l)[i]? = if i < s then some 1 else l[i - s]? := by
  have hl : 0 < l.length := by omega
  have hm : s % l.length < l.length := Nat.mod_lt _ hl
  rw [shifted, List.getElem?_mapIdx, List.getElem?_rotate h]
  by_cases hs : i < s
  · have : (i + (l.length - s % l.length)) % l.length < l.length := Nat.mod_lt _ hl
    simp [hs, this]
  · have hs' : s % l.length = s := Nat.mod_eq_of_lt (by omega)
    rw [if_neg hs, hs', show i + (l.length - s) = (i - s) + l.length by omega, Nat.add_mod_right,
      Nat.mod_eq_of_lt (by omega)]
    simp [hs]

theorem weights_length (c : Cfg K) (wd : List K) : (weights c wd).length = wd.length := by
  simp [weights, shifted_length, opacities, cumsum_length]

/-- A weight: the capped density of the point against what the points at least `surface_thickness` before it
let through. -/
theorem weights_get (c : Cfg K) (wd : List K) (i : Nat) (x : K) (h : wd[i]? = some x) :
    (weights c wd)[i]? = some (c.weight (c.cap x)
      (if i < c.thickness then 1 else 1 - c.cap (wd.take (i + 1 - c.thickness)).sum)) := by
  have hi : i < wd.length := (List.getElem?_eq_some_iff.1 h).1
  have hl : ((opacities c wd).map fun o => -o + 1).length = wd.length := by
    simp [opacities, cumsum_length]
  rw [weights, List.getElem?_zipWith, List.getElem?_map, h, shifted_get _ _ _ (by omega)]
  by_cases hs : i < c.thickness
  · simp [hs]
  · rw [if_neg hs, if_neg hs, List.getElem?_map, opacities, List.getElem?_map,
      cumsum_get _ _ (by omega), show i - c.thickness + 1 = i + 1 - c.thickness by omega]
    simp only [Option.map_some]
    rw [neg_add_eq_sub]

/-! ### Specification: marching along the ray -/

/-- Light `t` arrives; each point takes the share `1 - exp (-a)` of what is left. -/
noncomputable def eaMarch (t : ℝ) : List ℝ → List ℝ
  | [] => []
  | a :: l => t * (1 - Real.exp (-a)) :: eaMarch (t * Real.exp (-a)) l

/-- Room `t` is left; each point takes `a`, or what is left. -/
def csMarch (t : K) : List K → List K
  | [] => []
  | a :: l => min a t :: csMarch (t - min a t) l

theorem eaMarch_length (t : ℝ) (l : List ℝ) : (eaMarch t l).length = l.length := by
  induction l generalizing t with
  | nil => rfl
  | cons a l ih => simp [eaMarch, ih]

theorem csMarch_length (t : K) (l : List K) : (csMarch t l).length = l.length := by
  induction l generalizing t with
  | nil => rfl
  | cons a l ih => simp [csMarch, ih]

theorem eaMarch_get (t : ℝ) (l : List ℝ) (i : Nat) (x : ℝ) (h : l[i]? = some x) :
    (eaMarch t l)[i]? = some (t * Real.exp (-(l.take i).sum) * (1 - Real.exp (-x))) := by
  induction l generalizing t i with
  | nil => simp at h
  | cons a l ih =>
    cases i with
    | zero => simp at h; subst h; simp [eaMarch]
    | succ i =>
      rw [eaMarch, List.getElem?_cons_succ, ih _ i (by simpa using h), List.take_succ_cons, List.sum_cons,
        neg_add, Real.exp_add]
      congr 1; ring

/-- **The weights of the emission-absorption raymarcher** are the shares of the light taken at the points. -/
theorem ea_weights (c : Cfg ℝ) (hc : c.thickness = 1) (wd : List ℝ) : weights (ea c) wd = eaMarch 1 wd := by
  refine List.ext_getElem? fun i => ?_
  rcases h : wd[i]? with _ | x
  · rw [List.getElem?_eq_none_iff] at h
    rw [List.getElem?_eq_none (by rw [weights_length]; omega), List.getElem?_eq_none (by rw [eaMarch_length]; omega)]
  · rw [weights_get _ _ _ _ h, eaMarch_get _ _ _ _ h]
    simp only [ea, hc, Nat.add_sub_cancel]
    by_cases hi : i < 1
    · obtain rfl : i = 0 := by omega
      simp
    · rw [if_neg hi]; congr 1; ring

theorem eaMarch_sum (t : ℝ) (l : List ℝ) : (eaMarch t l).sum = t * (1 - Real.exp (-l.sum)) := by
  induction l generalizing t with
  | nil => simp [eaMarch]
  | cons a l ih =>
    rw [eaMarch, List.sum_cons, ih, List.sum_cons, neg_add, Real.exp_add]; ring

theorem eaMarch_nonneg (t : ℝ) (ht : 0 ≤ t) (l : List ℝ) (h : ∀ a ∈ l, 0 ≤ a) : ∀ w ∈ eaMarch t l, 0 ≤ w := by
  induction l generalizing t with
  | nil => simp [eaMarch]
  | cons a l ih =>
    have ha := h a List.mem_cons_self
    have he : Real.exp (-a) ≤ 1 := Real.exp_le_one_iff.2 (by linarith)
    intro w hw
    rcases List.mem_cons.1 hw with rfl | hw
    · exact mul_nonneg ht (by linarith)
    · exact ih _ (mul_nonneg ht (Real.exp_pos _).le) (fun b hb => h b (List.mem_cons_of_mem _ hb)) w hw

/-- The mask of the emission-absorption raymarcher. -/
theorem ea_mask (c : Cfg ℝ) (wd : List ℝ) (h : wd ≠ []) :
    (opacities (ea c) wd).getLast? = some (1 - Real.exp (-wd.sum)) := by
  rw [opacities, List.getLast?_map, cumsum_last _ h]; rfl

/-- **The weights sum up to the mask**, whatever the densities and lengths are; they are not negative, and
the mask is between 0 and 1, if no weighted density is negative. -/
theorem ea_sum (c : Cfg ℝ) (hc : c.thickness = 1) (wd : List ℝ) (h : wd ≠ []) :
    (opacities (ea c) wd).getLast? = some (weights (ea c) wd).sum ∧
    ((∀ a ∈ wd, 0 ≤ a) → (∀ w ∈ weights (ea c) wd, 0 ≤ w) ∧ 0 ≤ (weights (ea c) wd).sum ∧
      (weights (ea c) wd).sum < 1) := by
  rw [ea_mask c wd h, ea_weights c hc, eaMarch_sum, one_mul]
  refine ⟨rfl, fun hn => ⟨eaMarch_nonneg 1 zero_le_one wd hn, ?_, ?_⟩⟩
  · have : Real.exp (-wd.sum) ≤ 1 := Real.exp_le_one_iff.2 (by linarith [List.sum_nonneg hn])
    linarith
  · linarith [Real.exp_pos (-wd.sum)]

/-- **More than one.**  With a larger `surface_thickness` the weights can sum up to more than one, although
the documentation says they do not; -/
theorem ea_thick : ((weights (ea { cap := id, weight := fun a _ => a, bgOpacity := 0, thickness := 2 })
    [Real.log 4, Real.log 4]).sum : ℝ) = 3 / 2 := by
  have h4 : Real.exp (-Real.log 4) = 1 / 4 := by rw [Real.exp_neg, Real.exp_log (by norm_num)]; norm_num
  have h : weights (ea { cap := id, weight := fun a _ => a, bgOpacity := 0, thickness := 2 })
      [Real.log 4, Real.log 4] = [3 / 4, 3 / 4] := by
    refine List.ext_getElem? fun i => ?_
    match i with
    | 0 => rw [weights_get _ _ 0 (Real.log 4) rfl]; simp [ea, h4]; norm_num
    | 1 => rw [weights_get _ _ 1 (Real.log 4) rfl]; simp [ea, h4]; norm_num
    | i + 2 => simp [weights_length]
  rw [h]; norm_num

/-- Splitting an interval into two of the same density leaves all other weights alone and divides the weight of
the interval. -/
theorem ea_split (c : Cfg ℝ) (hc : c.thickness = 1) (pre post : List ℝ) (a b : ℝ) :
    ∃ P w1 w2 Q, weights (ea c) (pre ++ a :: b :: post) = P ++ w1 :: w2 :: Q ∧ P.length = pre.length ∧
      weights (ea c) (pre ++ (a + b) :: post) = P ++ (w1 + w2) :: Q := by
  rw [ea_weights c hc, ea_weights c hc]
  generalize (1 : ℝ) = t
  induction pre generalizing t with
  | nil =>
    refine ⟨[], _, _, _, rfl, rfl, ?_⟩
    simp only [List.nil_append, eaMarch, neg_add, Real.exp_add, List.cons.injEq]
    exact ⟨by ring, by rw [mul_assoc]⟩
  | cons p pre ih =>
    obtain ⟨P, w1, w2, Q, h1, h2, h3⟩ := ih (t * Real.exp (-p))
    exact ⟨_ :: P, w1, w2, Q, by simp [eaMarch, h1]; rfl, by simp [h2], by simp [eaMarch, h3]⟩

/-! ### Larger thickness -/

/-- What reaches past the first `k` points. -/
noncomputable def reach (wd : List ℝ) (k : Nat) : ℝ := Real.exp (-(wd.take k).sum)

theorem ea_weights_range (c : Cfg ℝ) (_hs : 0 < c.thickness) (wd : List ℝ) : weights (ea c) wd =
    (List.range wd.length).map fun i => (1 - Real.exp (-wd.getD i 0)) * reach wd (i + 1 - c.thickness) := by
  refine List.ext_getElem? fun i => ?_
  rcases h : wd[i]? with _ | x
  · rw [List.getElem?_eq_none_iff] at h
    rw [List.getElem?_eq_none (by rw [weights_length]; omega), List.getElem?_eq_none (by simpa using h)]
  · have hi := (List.getElem?_eq_some_iff.1 h).1
    rw [weights_get _ _ _ _ h, List.getElem?_map, List.getElem?_range hi, Option.map_some, List.getD_eq_getElem?_getD,
      h, Option.getD_some]
    by_cases h2 : i < c.thickness
    · rw [if_pos (show i < (ea c).thickness from h2), show i + 1 - c.thickness = 0 by omega]; simp [ea, reach]
    · rw [if_neg (show ¬ i < (ea c).thickness from h2)]; simp only [ea, reach]; congr 1; ring

theorem reach_succ (wd : List ℝ) (k : Nat) : reach wd (k + 1) = reach wd k * Real.exp (-wd.getD k 0) := by
  rw [reach, reach, List.take_add_one, List.sum_append, neg_add, Real.exp_add, List.getD_eq_getElem?_getD]
  cases wd[k]? <;> simp

theorem reach_pos (wd : List ℝ) (k : Nat) : 0 < reach wd k := Real.exp_pos _

theorem getD_nonneg (wd : List ℝ) (h : ∀ a ∈ wd, 0 ≤ a) (k : Nat) : 0 ≤ wd.getD k 0 := by
  rw [List.getD_eq_getElem?_getD]
  rcases hk : wd[k]? with _ | x
  · simp
  · exact h x (List.mem_of_getElem? hk)

theorem reach_anti (wd : List ℝ) (h : ∀ a ∈ wd, 0 ≤ a) : Antitone (reach wd) := by
  refine antitone_nat_of_succ_le fun k => ?_
  rw [reach_succ]
  have : Real.exp (-wd.getD k 0) ≤ 1 := Real.exp_le_one_iff.2 (by linarith [getD_nonneg wd h k])
  nlinarith [reach_pos wd k]

/-- **The bound for any thickness**: the weights are not negative and their sum is at most the thickness times
the mask. -/
theorem ea_thick_sum (c : Cfg ℝ) (hs : 0 < c.thickness) (wd : List ℝ) (h : ∀ a ∈ wd, 0 ≤ a) :
    (∀ w ∈ weights (ea c) wd, 0 ≤ w) ∧
    (weights (ea c) wd).sum ≤ c.thickness * (1 - Real.exp (-wd.sum)) := by
  rw [ea_weights_range c hs]
  generalize c.thickness = s at hs
  have hb : ∀ i, 0 ≤ (1 - Real.exp (-wd.getD i 0)) * reach wd (i + 1 - s) ∧
      (1 - Real.exp (-wd.getD i 0)) * reach wd (i + 1 - s) ≤ reach wd (i + 1 - s) - reach wd (i + 1) := by
    intro i
    have he : Real.exp (-wd.getD i 0) ≤ 1 := Real.exp_le_one_iff.2 (by linarith [getD_nonneg wd h i])
    have hr := reach_pos wd (i + 1 - s)
    refine ⟨mul_nonneg (by linarith) hr.le, ?_⟩
    have : reach wd i ≤ reach wd (i + 1 - s) := reach_anti wd h (by omega)
    rw [reach_succ wd i]
    nlinarith [Real.exp_pos (-wd.getD i 0)]
  refine ⟨fun w hw => ?_, ?_⟩
  · obtain ⟨i, -, rfl⟩ := List.mem_map.1 hw; exact (hb i).1
  · have key : ∀ n, ((List.range n).map fun i => (1 - Real.exp (-wd.getD i 0)) * reach wd (i + 1 - s)).sum ≤
        s - ((List.range s).map fun j => reach wd (n - j)).sum := by
      intro n
      induction n with
      | zero =>
        have : ((List.range s).map fun j => reach wd (0 - j)) = (List.range s).map fun _ => (1 : ℝ) :=
          List.map_congr_left fun j _ => by simp [reach]
        rw [this]; simp
      | succ n ih =>
        rw [List.range_succ, List.map_append, List.sum_append, List.map_singleton, List.sum_singleton]
        have hstep : ((List.range s).map fun j => reach wd (n + 1 - j)).sum =
            ((List.range s).map fun j => reach wd (n - j)).sum + reach wd (n + 1) - reach wd (n + 1 - s) := by
          clear ih hb
          induction s with
          | zero => omega
          | succ s ihs =>
            rw [List.range_succ, List.map_append, List.sum_append, List.map_append, List.sum_append]
            simp only [List.map_singleton, List.sum_singleton]
            rcases Nat.eq_zero_or_pos s with rfl | hp
            · simp
            · rw [ihs hp, show n + 1 - (s + 1) = n - s by omega]; ring
        rw [hstep]
        linarith [(hb n).2]
    refine (key wd.length).trans ?_
    have hlow : (s : ℝ) * Real.exp (-wd.sum) ≤ ((List.range s).map fun j => reach wd (wd.length - j)).sum := by
      have : ∀ m : Nat, (m : ℝ) * Real.exp (-wd.sum) ≤ ((List.range m).map fun j => reach wd (wd.length - j)).sum := by
        intro m
        induction m with
        | zero => simp
        | succ m ih =>
          rw [List.range_succ, List.map_append, List.sum_append, List.map_singleton, List.sum_singleton]
          have h1 : reach wd wd.length ≤ reach wd (wd.length - m) := reach_anti wd h (by omega)
          rw [reach, List.take_length] at h1
          push_cast; linarith
      exact this s
    linarith

/-- **The core raymarcher.**  The weights are those of `pytorch3d.renderer.EmissionAbsorptionRaymarcher` with
`eps = 0` for the densities `1 - exp (-delta * density)`. -/
theorem ea_core (c : Cfg ℝ) (hs : 0 < c.thickness) (wd : List ℝ) :
    Raymarching.eaWeights (c.thickness : Int) 0 (wd.map fun x => 1 - Real.exp (-x)) = .ok (weights (ea c) wd) := by
  rw [Raymarching.eaWeights_eq _ hs, ea_weights_range c hs, List.length_map]
  congr 1
  refine List.map_congr_left fun i hi => ?_
  have hi := List.mem_range.1 hi
  have hp : ∀ l : List ℝ, (((l.map fun x => 1 - Real.exp (-x)).map fun x => 1 + 0 - x).prod : ℝ) =
      Real.exp (-l.sum) := by
    intro l
    induction l with
    | nil => simp
    | cons a l ih =>
      rw [List.map_cons, List.map_cons, List.prod_cons, ih, List.sum_cons, neg_add, Real.exp_add]; ring
  rw [Raymarching.weight, Raymarching.transmittance, ← List.map_take, hp, reach, List.getD_eq_getElem?_getD,
    List.getD_eq_getElem?_getD, List.getElem?_map, List.getElem?_eq_getElem hi]
  rfl

/-! ### Cumulative sum -/

theorem csMarch_get (t : K) (ht : 0 ≤ t) (l : List K) (hl : ∀ a ∈ l, 0 ≤ a) (i : Nat) (x : K) (h : l[i]? = some x) :
    (csMarch t l)[i]? = some (min x (t - min (l.take i).sum t)) := by
  induction l generalizing t i with
  | nil => simp at h
  | cons a l ih =>
    cases i with
    | zero =>
      simp at h; subst h
      simp only [csMarch, List.getElem?_cons_zero, List.take_zero, List.sum_nil, min_eq_left ht, sub_zero]
    | succ i =>
      have ha := hl a List.mem_cons_self
      have hS : 0 ≤ (l.take i).sum :=
        List.sum_nonneg fun b hb => hl b (List.mem_cons_of_mem _ (List.mem_of_mem_take hb))
      rw [csMarch, List.getElem?_cons_succ, ih _ (sub_nonneg.2 (min_le_right _ _))
        (fun b hb => hl b (List.mem_cons_of_mem _ hb)) i (by simpa using h), List.take_succ_cons, List.sum_cons]
      congr 2
      rcases le_total a t with h1 | h1
      · rw [min_eq_left h1]
        rcases le_total (l.take i).sum (t - a) with h2 | h2
        · rw [min_eq_left h2, min_eq_left (by linarith)]; ring
        · rw [min_eq_right h2, min_eq_right (by linarith)]; ring
      · rw [min_eq_right h1, sub_self, min_eq_right hS, min_eq_right (by linarith)]; ring

/-- **The weights of the cumulative-sum raymarcher**: every point takes its weighted density, until one unit is
used up. -/
theorem cs_weights (c : Cfg K) (hc : c.thickness = 1) (wd : List K) (h : ∀ a ∈ wd, 0 ≤ a) :
    weights (cs c) wd = csMarch 1 wd := by
  refine List.ext_getElem? fun i => ?_
  rcases hx : wd[i]? with _ | x
  · rw [List.getElem?_eq_none_iff] at hx
    rw [List.getElem?_eq_none (by rw [weights_length]; omega), List.getElem?_eq_none (by rw [csMarch_length]; omega)]
  · have hS : 0 ≤ (wd.take i).sum := List.sum_nonneg fun b hb => h b (List.mem_of_mem_take hb)
    rw [weights_get _ _ _ _ hx, csMarch_get 1 zero_le_one _ h _ _ hx]
    simp only [cs, hc, Nat.add_sub_cancel]
    congr 1
    by_cases hi : i < 1
    · obtain rfl : i = 0 := by omega
      simp
    · rw [if_neg hi, min_assoc]
      congr 1
      refine min_eq_right ?_
      have : 0 ≤ min (wd.take i).sum 1 := le_min hS zero_le_one
      linarith

theorem csMarch_sum (t : K) (ht : 0 ≤ t) (l : List K) (hl : ∀ a ∈ l, 0 ≤ a) :
    (csMarch t l).sum = min l.sum t ∧ ∀ w ∈ csMarch t l, 0 ≤ w := by
  induction l generalizing t with
  | nil => simp [csMarch, ht]
  | cons a l ih =>
    have ha := hl a List.mem_cons_self
    have hS : 0 ≤ l.sum := List.sum_nonneg fun b hb => hl b (List.mem_cons_of_mem _ hb)
    obtain ⟨h1, h2⟩ := ih (t - min a t) (sub_nonneg.2 (min_le_right _ _)) fun b hb => hl b (List.mem_cons_of_mem _ hb)
    refine ⟨?_, fun w hw => ?_⟩
    · rw [csMarch, List.sum_cons, h1, List.sum_cons]
      rcases le_total a t with h3 | h3
      · rw [min_eq_left h3]
        rcases le_total l.sum (t - a) with h4 | h4
        · rw [min_eq_left h4, min_eq_left (by linarith)]
        · rw [min_eq_right h4, min_eq_right (by linarith)]; ring
      · rw [min_eq_right h3, sub_self, min_eq_right hS, min_eq_right (by linarith), add_zero]
    · rcases List.mem_cons.1 hw with rfl | hw
      · exact le_min ha ht
      · exact h2 w hw

/-- **The weights sum up to the mask**, which is the sum of the weighted densities, but at most one. -/
theorem cs_sum (c : Cfg K) (hc : c.thickness = 1) (wd : List K) (hne : wd ≠ []) (h : ∀ a ∈ wd, 0 ≤ a) :
    (opacities (cs c) wd).getLast? = some (weights (cs c) wd).sum ∧
    (weights (cs c) wd).sum = min wd.sum 1 ∧ ∀ w ∈ weights (cs c) wd, 0 ≤ w := by
  obtain ⟨h1, h2⟩ := csMarch_sum 1 zero_le_one wd h
  rw [cs_weights c hc wd h]
  refine ⟨?_, h1, h2⟩
  rw [opacities, List.getLast?_map, cumsum_last _ hne, h1]; rfl

/-! ### The output -/

theorem diffs_length (l : List K) : (diffs l).length = l.length - 1 := by simp [diffs]

theorem diffs_nonneg (l : List K) (h : l.Pairwise (· ≤ ·)) : ∀ d ∈ diffs l, 0 ≤ d := by
  intro d hd
  obtain ⟨i, hi, rfl⟩ := List.getElem_of_mem hd
  have hi' : i < l.length - 1 := by rw [diffs_length] at hi; exact hi
  simp only [diffs, List.getElem_zipWith, List.getElem_tail]
  exact sub_nonneg.2 (List.pairwise_iff_getElem.1 h i (i + 1) (by omega) (by omega) (by omega))

/-- The intervals are not negative for points sorted by depth. -/
theorem deltas_nonneg (c : Cfg K) (hb : 0 ≤ c.bgOpacity) (z : List K) (hz : z.Pairwise (· ≤ ·))
    (rd : Option (List K)) (hr : ∀ d, rd = some d → ∀ x ∈ d, 0 ≤ x) : ∀ d ∈ deltas c z rd, 0 ≤ d := by
  intro d hd
  unfold deltas at hd
  cases rd with
  | some l => exact hr l rfl d hd
  | none =>
    rcases List.mem_append.1 hd with hd | hd
    · exact diffs_nonneg z hz d hd
    · by_cases h : c.replicate = true
      · rw [if_pos h] at hd; exact diffs_nonneg z hz d (List.mem_of_mem_drop hd)
      · rw [if_neg h] at hd
        obtain ⟨_, -, rfl⟩ := List.mem_map.1 hd
        exact hb

/-- The weighted densities are not negative for points sorted by depth and densities passed through ReLU. -/
theorem weighted_nonneg (c : Cfg K) (hb : 0 ≤ c.bgOpacity) (dens z : List K) (hz : z.Pairwise (· ≤ ·))
    (rd : Option (List K)) (hr : ∀ d, rd = some d → ∀ x ∈ d, 0 ≤ x) (hd : c.relu = true ∨ ∀ x ∈ dens, 0 ≤ x) :
    ∀ a ∈ weighted c dens z rd, 0 ≤ a := by
  intro a ha
  obtain ⟨i, hi, rfl⟩ := List.getElem_of_mem ha
  simp only [weighted, List.length_zipWith] at hi
  simp only [weighted, List.getElem_zipWith]
  refine mul_nonneg (deltas_nonneg c hb z hz rd hr _ (List.getElem_mem _)) ?_
  have : ∀ x ∈ (if c.relu then dens.map (max 0) else dens), 0 ≤ x := by
    intro x hx
    by_cases h : c.relu = true
    · rw [if_pos h] at hx
      obtain ⟨y, -, rfl⟩ := List.mem_map.1 hx
      exact le_max_left _ _
    · rw [if_neg h] at hx
      exact (hd.resolve_left h) x hx
  exact this _ (List.getElem_mem _)

/-- What is needed to get a result. -/
structure Fits {C : Nat} (c : Cfg K) (dens : List K) (feats : List (Fin C → K)) (z : List K)
    (rd : Option (List K)) : Prop where
  ne : dens ≠ []
  hfeats : feats.length = dens.length
  hz : z.length = dens.length
  hrd : (deltas c z rd).length = dens.length
  bg : c.bg.length = 1 ∨ c.bg.length = C

theorem weighted_length (c : Cfg K) (dens z : List K) (rd : Option (List K))
    (h : (deltas c z rd).length = dens.length) : (weighted c dens z rd).length = dens.length := by
  have : (if c.relu = true then dens.map (max 0) else dens).length = dens.length := by split <;> simp
  rw [weighted, List.length_zipWith, h, this, min_self]

theorem forward_ok {C : Nat} (c : Cfg K) (dens : List K) (feats : List (Fin C → K)) (z : List K)
    (rd : Option (List K)) (h : Fits c dens feats z rd) :
    forward c dens feats z rd = .ok {
      features := fun j => (if c.blend then c.cap (weighted c dens z rd).sum else 1) *
          (List.zipWith (fun w f => w * f j) (weights c (weighted c dens z rd)) feats).sum +
        (1 - c.cap (weighted c dens z rd).sum) * bgAt c.bg j
      depth := (List.zipWith (· * ·) (weights c (weighted c dens z rd)) z).sum
      mask := c.cap (weighted c dens z rd).sum
      weights := weights c (weighted c dens z rd) } := by
  have hne : weighted c dens z rd ≠ [] := fun h0 => h.ne <| by
    have := weighted_length c dens z rd h.hrd
    rw [h0] at this
    exact List.length_eq_zero_iff.1 this.symm
  have ho : (opacities c (weighted c dens z rd)).getLast? = some (c.cap (weighted c dens z rd).sum) := by
    rw [opacities, List.getLast?_map, cumsum_last _ hne]; rfl
  have hg : ¬ (c.bg.length ≠ 1 ∧ c.bg.length ≠ C) := by
    rcases h.bg with h | h <;> simp [h]
  rw [forward, if_neg (by simp [h.hfeats, h.hz, h.hrd]), if_neg hg]
  simp only [ho]

/-- **A wrong number of background channels is an error.** -/
theorem forward_background {C : Nat} (c : Cfg K) (dens : List K) (feats : List (Fin C → K)) (z : List K)
    (rd : Option (List K)) (h1 : c.bg.length ≠ 1) (h2 : c.bg.length ≠ C) :
    ∀ o, forward c dens feats z rd ≠ .ok o := by
  intro o
  unfold forward
  split
  · simp
  · rw [if_pos ⟨h1, h2⟩]; simp

/-- Weighted averages stay in range. -/
theorem dot_mem (w f : List K) (hl : w.length = f.length) (lo hi : K) (hw : ∀ x ∈ w, 0 ≤ x)
    (hf : ∀ x ∈ f, lo ≤ x ∧ x ≤ hi) :
    w.sum * lo ≤ (List.zipWith (· * ·) w f).sum ∧ (List.zipWith (· * ·) w f).sum ≤ w.sum * hi := by
  induction w generalizing f with
  | nil => simp
  | cons a w ih =>
    cases f with
    | nil => simp at hl
    | cons b f =>
      obtain ⟨h1, h2⟩ := ih f (by simpa using hl) (fun x hx => hw x (List.mem_cons_of_mem _ hx))
        (fun x hx => hf x (List.mem_cons_of_mem _ hx))
      have ha := hw a List.mem_cons_self
      obtain ⟨h3, h4⟩ := hf b List.mem_cons_self
      simp only [List.zipWith_cons_cons, List.sum_cons]
      constructor <;> nlinarith

theorem zip_feat {C : Nat} (w : List K) (feats : List (Fin C → K)) (j : Fin C) :
    List.zipWith (fun w f => w * f j) w feats = List.zipWith (· * ·) w (feats.map fun f => f j) := by
  rw [List.zipWith_map_right]

/-- A raymarcher whose weights sum up to the mask: both raymarchers, with thickness one. -/
structure Exact (c : Cfg K) : Prop where
  nonneg : ∀ wd : List K, (∀ a ∈ wd, 0 ≤ a) → ∀ w ∈ weights c wd, 0 ≤ w
  sum : ∀ wd : List K, (∀ a ∈ wd, 0 ≤ a) → (weights c wd).sum = c.cap wd.sum
  range : ∀ x : K, 0 ≤ x → 0 ≤ c.cap x ∧ c.cap x ≤ 1

theorem ea_exact (c : Cfg ℝ) (hc : c.thickness = 1) : Exact (ea c) where
  nonneg wd h := by rw [ea_weights c hc]; exact eaMarch_nonneg 1 zero_le_one wd h
  sum wd _ := by rw [ea_weights c hc, eaMarch_sum, one_mul]; rfl
  range x hx := by
    have : Real.exp (-x) ≤ 1 := Real.exp_le_one_iff.2 (by linarith)
    have := Real.exp_pos (-x)
    simp only [ea]; constructor <;> linarith

theorem cs_exact (c : Cfg K) (hc : c.thickness = 1) : Exact (cs c) where
  nonneg wd h := by rw [cs_weights c hc wd h]; exact (csMarch_sum 1 zero_le_one wd h).2
  sum wd h := by rw [cs_weights c hc wd h]; exact (csMarch_sum 1 zero_le_one wd h).1
  range x hx := ⟨le_min hx zero_le_one, min_le_right _ _⟩

/-- Settings and data of a ray which is sorted by depth. -/
structure Sorted (c : Cfg K) (dens z : List K) (rd : Option (List K)) : Prop where
  bg : 0 ≤ c.bgOpacity
  z : z.Pairwise (· ≤ ·)
  rd : ∀ d, rd = some d → ∀ x ∈ d, 0 ≤ x
  dens : c.relu = true ∨ ∀ x ∈ dens, 0 ≤ x

/-- **Range.**  The mask is between 0 and 1 and is the sum of the weights, the depth lies between the mask times
the nearest and the mask times the farthest length, and every channel of the features, unless `blend_output`, between
bounds of the features of the points and of the background. -/
theorem forward_range {C : Nat} (c : Cfg K) (he : Exact c) (dens : List K) (feats : List (Fin C → K)) (z : List K)
    (rd : Option (List K)) (h : Fits c dens feats z rd) (hs : Sorted c dens z rd) :
    ∃ o, forward c dens feats z rd = .ok o ∧ 0 ≤ o.mask ∧ o.mask ≤ 1 ∧ o.weights.sum = o.mask ∧
      (∀ w ∈ o.weights, 0 ≤ w) ∧
      (∀ near far, (∀ x ∈ z, near ≤ x ∧ x ≤ far) → o.mask * near ≤ o.depth ∧ o.depth ≤ o.mask * far) ∧
      (c.blend = false → ∀ j lo hi, (∀ f ∈ feats, lo ≤ f j ∧ f j ≤ hi) → lo ≤ bgAt c.bg j → bgAt c.bg j ≤ hi →
        lo ≤ o.features j ∧ o.features j ≤ hi) := by
  have hn := weighted_nonneg c hs.bg dens z hs.z rd hs.rd hs.dens
  have hl := weighted_length c dens z rd h.hrd
  refine ⟨_, forward_ok c dens feats z rd h, ?_⟩
  generalize weighted c dens z rd = wd at hn hl
  obtain ⟨h1, h2⟩ := he.range wd.sum (List.sum_nonneg hn)
  have h3 := he.sum wd hn
  have h4 := he.nonneg wd hn
  refine ⟨h1, h2, h3, h4, fun near far hz => ?_, fun hb j lo hi hf hg1 hg2 => ?_⟩
  · have := dot_mem (weights c wd) z (by rw [weights_length, hl, h.hz]) near far h4 hz
    rw [h3] at this; exact this
  · simp only [hb, Bool.false_eq_true, if_false, one_mul]
    rw [zip_feat]
    obtain ⟨h5, h6⟩ := dot_mem (weights c wd) (feats.map fun f => f j)
      (by rw [weights_length, hl, List.length_map, h.hfeats]) lo hi h4 (by
        intro x hx; obtain ⟨f, hf', rfl⟩ := List.mem_map.1 hx; exact hf f hf')
    rw [h3] at h5 h6
    constructor <;> nlinarith

theorem dot_const (w f : List K) (hl : w.length = f.length) (v : K) (hf : ∀ x ∈ f, x = v) :
    (List.zipWith (· * ·) w f).sum = w.sum * v := by
  induction w generalizing f with
  | nil => simp
  | cons a w ih =>
    cases f with
    | nil => simp at hl
    | cons b f =>
      simp only [List.zipWith_cons_cons, List.sum_cons, ih f (by simpa using hl)
        (fun x hx => hf x (List.mem_cons_of_mem _ hx)), hf b List.mem_cons_self]; ring

/-- **A uniform colour.**  The result is the blend of the colour with the background, with the mask as weight;
with `blend_output` the colour is multiplied by the mask twice. -/
theorem forward_uniform {C : Nat} (c : Cfg K) (he : Exact c) (dens : List K) (feats : List (Fin C → K)) (z : List K)
    (rd : Option (List K)) (h : Fits c dens feats z rd) (hs : Sorted c dens z rd) (v : Fin C → K)
    (hv : ∀ f ∈ feats, f = v) :
    ∃ o, forward c dens feats z rd = .ok o ∧ ∀ j, o.features j =
      (if c.blend then o.mask ^ 2 else o.mask) * v j + (1 - o.mask) * bgAt c.bg j := by
  have hn := weighted_nonneg c hs.bg dens z hs.z rd hs.rd hs.dens
  have hl := weighted_length c dens z rd h.hrd
  refine ⟨_, forward_ok c dens feats z rd h, fun j => ?_⟩
  generalize weighted c dens z rd = wd at hn hl
  dsimp only
  rw [zip_feat, dot_const _ _ (by rw [weights_length, hl, List.length_map, h.hfeats]) (v j) (by
    intro x hx; obtain ⟨f, hf', rfl⟩ := List.mem_map.1 hx; rw [hv f hf']), he.sum wd hn]
  split <;> ring

/-- `density_relu`. -/
def reluIf (c : Cfg K) (x : K) : K := if c.relu then max 0 x else x

/-- The last interval. -/
theorem weighted_last (c : Cfg K) (hr : c.replicate = false) (dens z : List K) (x y : K)
    (h : dens.length = z.length) : weighted c (dens ++ [x]) (z ++ [y]) none =
      List.zipWith (· * ·) (diffs (z ++ [y])) (dens.map (reluIf c)) ++ [c.bgOpacity * reluIf c x] := by
  have h1 : (diffs (z ++ [y])).length = (dens.map (reluIf c)).length := by simp [diffs_length, h]
  have h2 : ((z ++ [y]).take 1).map (fun _ => c.bgOpacity) = [c.bgOpacity] := by
    cases z <;> simp
  have h3 : (if c.relu then (dens ++ [x]).map (max 0) else dens ++ [x]) = dens.map (reluIf c) ++ [reluIf c x] := by
    cases hc : c.relu
    · have : ∀ l : List K, l.map (reluIf c) = l := fun l => by
        conv_rhs => rw [← List.map_id l]
        exact List.map_congr_left fun a _ => by simp [reluIf, hc]
      rw [this]; simp [reluIf, hc]
    · simp only [if_true, List.map_append, List.map_singleton]
      congr 1
      · exact List.map_congr_left fun a _ => by simp [reluIf, hc]
      · simp [reluIf, hc]
  simp only [weighted, deltas, hr, Bool.false_eq_true, if_false, h2, h3]
  rw [List.zipWith_append h1]
  simp

theorem weights_append (c : Cfg K) (l : List K) (a : K) :
    ∃ w, weights c (l ++ [a]) = weights c l ++ [w] := by
  refine ⟨_, List.ext_getElem? (l₂ := weights c l ++ [c.weight (c.cap a)
    (if l.length < c.thickness then 1 else 1 - c.cap ((l ++ [a]).take (l.length + 1 - c.thickness)).sum)]) fun i => ?_⟩
  rcases Nat.lt_trichotomy i l.length with hi | hi | hi
  · have h1 : l[i]? = some l[i] := List.getElem?_eq_getElem hi
    rw [List.getElem?_append_left (by rw [weights_length]; exact hi), weights_get c l i _ h1,
      weights_get c (l ++ [a]) i l[i] (by rw [List.getElem?_append_left hi, h1])]
    by_cases ht : i < c.thickness
    · rw [if_pos ht, if_pos ht]
    · rw [if_neg ht, if_neg ht]
      rcases Nat.eq_zero_or_pos c.thickness with h0 | h0
      · rw [List.take_append_of_le_length (by omega)]
      · rw [List.take_append_of_le_length (by omega)]
  · subst hi
    rw [weights_get c (l ++ [a]) l.length a (by simp), List.getElem?_append_right (by rw [weights_length]),
      weights_length]
    simp
  · rw [List.getElem?_eq_none (by rw [weights_length]; simp; omega),
      List.getElem?_eq_none (by simp [weights_length]; omega)]

/-- **The last point is ignored** if `background_opacity` is zero, as it is by default for the
cumulative-sum raymarcher: neither its density nor its features change the result. -/
theorem last_ignored {C : Nat} (c : Cfg K) (he : Exact c) (hr : c.replicate = false) (hb : c.bgOpacity = 0)
    (dens z : List K) (feats : List (Fin C → K)) (y x x' : K) (f f' : Fin C → K)
    (h : Fits c (dens ++ [x]) (feats ++ [f]) (z ++ [y]) none) (hs : Sorted c (dens ++ [x]) (z ++ [y]) none) :
    forward c (dens ++ [x]) (feats ++ [f]) (z ++ [y]) none =
      forward c (dens ++ [x']) (feats ++ [f']) (z ++ [y]) none := by
  have hz : dens.length = z.length := by simpa using h.hz.symm
  have hf : feats.length = dens.length := by simpa using h.hfeats
  have h' : Fits c (dens ++ [x']) (feats ++ [f']) (z ++ [y]) none :=
    ⟨by simp, by simp [hf], by simp [hz], by simpa using h.hrd, h.bg⟩
  have hn := weighted_nonneg c hs.bg _ _ hs.z none hs.rd hs.dens
  rw [forward_ok _ _ _ _ _ h, forward_ok _ _ _ _ _ h', weighted_last c hr _ _ _ _ hz, weighted_last c hr _ _ _ _ hz]
  rw [weighted_last c hr _ _ _ _ hz] at hn
  simp only [hb, zero_mul] at hn ⊢
  have hl : (List.zipWith (· * ·) (diffs (z ++ [y])) (dens.map (reluIf c))).length = dens.length := by
    simp [diffs_length, hz]
  generalize List.zipWith (· * ·) (diffs (z ++ [y])) (dens.map (reluIf c)) = l at hn hl
  obtain ⟨w, hw⟩ := weights_append c l 0
  have h0 : w = 0 := by
    have h1 := he.sum _ hn
    have h2 := he.sum l fun a ha => hn a (List.mem_append_left _ ha)
    rw [hw, List.sum_append, h2] at h1
    simpa using h1
  rw [hw, h0]
  congr 2
  funext j
  have : ∀ g : Fin C → K, (List.zipWith (fun w f => w * f j) (weights c l ++ [0]) (feats ++ [g])).sum =
      (List.zipWith (fun w f => w * f j) (weights c l) feats).sum := by
    intro g
    rw [List.zipWith_append (by rw [weights_length, hl, hf])]
    simp
  rw [this, this]

/-- **The opaque background.**  The mask of the emission-absorption raymarcher is at least
`1 - exp (-background_opacity * density)` of the last density. -/
theorem ea_opaque {C : Nat} (c : Cfg ℝ) (hr : c.replicate = false)
    (dens z : List ℝ) (feats : List (Fin C → ℝ)) (y x : ℝ) (f : Fin C → ℝ)
    (h : Fits (ea c) (dens ++ [x]) (feats ++ [f]) (z ++ [y]) none)
    (hs : Sorted (ea c) (dens ++ [x]) (z ++ [y]) none) :
    ∃ o, forward (ea c) (dens ++ [x]) (feats ++ [f]) (z ++ [y]) none = .ok o ∧
      1 - Real.exp (-(c.bgOpacity * x)) ≤ o.mask := by
  have hz : dens.length = z.length := by simpa using h.hz.symm
  have hn := weighted_nonneg _ hs.bg _ _ hs.z none hs.rd hs.dens
  refine ⟨_, forward_ok _ _ _ _ _ h, ?_⟩
  rw [weighted_last (ea c) hr _ _ _ _ hz] at hn ⊢
  have h1 := List.sum_nonneg fun a ha => hn a (List.mem_append_left _ ha)
  have h2 : c.bgOpacity * x ≤ (ea c).bgOpacity * reluIf (ea c) x := by
    refine mul_le_mul_of_nonneg_left ?_ hs.bg
    unfold reluIf; split
    · exact le_max_right _ _
    · exact le_refl _
  simp only [ea] at h1 h2 ⊢
  rw [List.sum_append, List.sum_singleton]
  have : Real.exp (-((List.zipWith (· * ·) (diffs (z ++ [y])) (dens.map (reluIf (ea c)))).sum +
    c.bgOpacity * reluIf (ea c) x)) ≤ Real.exp (-(c.bgOpacity * x)) := Real.exp_le_exp.2 (by
      simp only [ea]; linarith)
  simp only [ea] at this
  linarith

/-- **Points which are not sorted** give negative weights: here the lengths are 1, 0 and the density is 1. -/
theorem ea_unsorted {C : Nat} (f g : Fin C → ℝ) :
    ∃ o, forward (ea { cap := id, weight := fun a _ => a, bgOpacity := 0, bg := [0] }) [1, 1] [f, g] [1, 0] none
      = .ok o ∧ o.weights.getD 0 0 = 1 - Real.exp 1 ∧ 1 - Real.exp 1 < 0 := by
  refine ⟨_, forward_ok _ _ _ _ _ ⟨by simp, rfl, rfl, by simp [deltas, diffs, ea], Or.inl rfl⟩, ?_, ?_⟩
  · rw [List.getD_eq_getElem?_getD]
    rw [weights_get _ _ 0 (-1) (by simp [weighted, deltas, diffs, ea])]
    simp [ea]
  · have := Real.exp_pos 1
    have h1 := Real.add_one_lt_exp (x := 1) one_ne_zero
    linarith

end P3D.ImpRaymarch
