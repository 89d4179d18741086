/-
The fisheye camera: `renderer/fisheyecameras.py`.

Numbers are real.  One camera and one point at a time; `none` stands for NaN or infinity, or for the failure of `torch.linalg.solve`.
-/
import Verif.Mat3
import Mathlib.Analysis.SpecialFunctions.Trigonometric.Arctan
import Mathlib.Analysis.SpecialFunctions.Trigonometric.ArctanDeriv
import Mathlib.Analysis.SpecialFunctions.Trigonometric.Bounds
import Mathlib.Analysis.Real.Sqrt
import Mathlib.Analysis.Real.Pi.Bounds
import Mathlib.Analysis.Calculus.Deriv.Pow
import Mathlib.Analysis.Calculus.Deriv.Add
import Mathlib.Algebra.BigOperators.Fin
import Mathlib.Tactic.Linarith
import Mathlib.Tactic.Ring
import Mathlib.Tactic.FieldSimp
import Mathlib.Tactic.NormNum

set_option linter.unusedSectionVars false

namespace P3D.FishEye

noncomputable section

/-! ## Model -/

/-- Points of the image plane. -/
abbrev V2 := ℝ × ℝ

/-- Parameters of one camera with six radial coefficients, and the flags. -/
structure Fe where
  focal : ℝ
  pp : V2
  k : Fin 6 → ℝ
  p : V2
  s : Fin 4 → ℝ
  useRadial : Bool
  useTang : Bool
  usePrism : Bool

/-- `self.epsilon` (line 134). -/
def eps : ℝ := 1 / 10 ^ 10

def sq (v : V2) : ℝ := v.1 * v.1 + v.2 * v.2
def norm (v : V2) : ℝ := Real.sqrt (sq v)

/-- `th_radial` (lines 183-185, 426-428). -/
def poly (k : Fin 6 → ℝ) (th : ℝ) : ℝ := 1 + ∑ i : Fin 6, (th * th) ^ (i.val + 1) * k i

/-- Lines 195-198: `xr_yr`, after the limit of `th / r` for small values (187-190). -/
def radial (k : Fin 6 → ℝ) (ab : V2) : V2 :=
  let r := norm ab
  let th := Real.arctan r
  (poly k th * (if |r| < eps then 1 else th / r)) • ab

/-- Lines 203-210, 372-380. -/
def tang (p x : V2) : V2 := (2 * (x.1 * p.1 + x.2 * p.2)) • x + sq x • p

/-- Lines 214-226, 382-395. -/
def prism (s : Fin 4 → ℝ) (x : V2) : V2 := (s 0 * sq x + s 1 * (sq x * sq x), s 2 * sq x + s 3 * (sq x * sq x))

/-- The distortions switched on. -/
def extra (c : Fe) (x : V2) : V2 := (if c.useTang then tang c.p x else 0) + (if c.usePrism then prism c.s x else 0)

/-- `_project_points_batch` (lines 145-231) for one point; the third coordinate is 1. -/
def project (c : Fe) (q : V3 ℝ) : Option V2 :=
  if q.z = 0 then none
  else
    let ab : V2 := (q.x / q.z, q.y / q.z)
    let x := radial c.k ab
    some (c.focal • ((if c.useRadial then x else ab) + extra c x) + c.pp)

/-- Entries of the Jacobian (lines 458-514). -/
structure J2 where
  a : ℝ
  b : ℝ
  c : ℝ
  d : ℝ

/-- `_compute_duv_distorted_dxryr` (lines 456-514). -/
def jac (c : Fe) (x : V2) : J2 :=
  let j : J2 := if c.useTang then
      ⟨1 + 6 * x.1 * c.p.1 + 2 * x.2 * c.p.2, 2 * (x.1 * c.p.2 + x.2 * c.p.1), 2 * (x.1 * c.p.2 + x.2 * c.p.1),
        1 + 6 * x.2 * c.p.2 + 2 * x.1 * c.p.1⟩
    else ⟨1, 0, 0, 1⟩
  if c.usePrism then
    let t1 := 2 * (c.s 0 + 2 * c.s 1 * sq x)
    let t2 := 2 * (c.s 2 + 2 * c.s 3 * sq x)
    ⟨j.a + x.1 * t1, j.b + x.2 * t1, j.c + x.1 * t2, j.d + x.2 * t2⟩
  else j

def J2.det (j : J2) : ℝ := j.a * j.d - j.b * j.c

/-- `torch.linalg.solve` for two unknowns. -/
def J2.solve (j : J2) (v : V2) : Option V2 :=
  if j.det = 0 then none else some ((j.d * v.1 - j.b * v.2) / j.det, (j.a * v.2 - j.c * v.1) / j.det)

/-- One Newton step for `xr_yr` (lines 367-407). -/
def stepXr (c : Fe) (uv x : V2) : Option V2 := ((jac c x).solve (uv - (x + extra c x))).map (x + ·)

/-- `n` steps. -/
def iter {α : Type} (f : α → Option α) : Nat → α → Option α
  | 0, x => some x
  | n + 1, x => (f x).bind (iter f n)

/-- `_compute_xr_yr_from_uv_distorted` (lines 345-408); `num_distortion_iters = 50`. -/
def findXr (c : Fe) (uv : V2) : Option V2 :=
  if !c.useTang && !c.usePrism then some uv else iter (stepXr c uv) 50 uv

/-- `dthD_dth` (lines 430). -/
def dpoly (k : Fin 6 → ℝ) (th : ℝ) : ℝ := 1 + ∑ i : Fin 6, (2 * (i.val : ℝ) + 3) * k i * (th * th) ^ (i.val + 1)

/-- Lines 447-449. -/
def clampTh (th : ℝ) : ℝ := if Real.pi / 2 ≤ |th| then 999 / 1000 * Real.pi / 2 else th

/-- One Newton step for theta (lines 419-449); `mask * x / 0` is NaN also where the mask is 0. -/
def stepTh (k : Fin 6 → ℝ) (want th : ℝ) : Option ℝ :=
  let d := dpoly k th
  let g := poly k th * th
  if d = 0 then none
  else if eps < |d| then some (clampTh (th + (want - g) / d))
  else some (clampTh (th + if 0 < (want - g) * d then 10 * eps else -(10 * eps)))

/-- `_get_theta_from_norm_xr_yr` (lines 410-450) for six parameters; with one parameter the factors `c` of the derivative are not
those of the six powers (not modelled). -/
def findTh (k : Fin 6 → ℝ) (want : ℝ) : Option ℝ := iter (stepTh k want) 50 want

/-- Line 293: `0 / 0` at the centre. -/
def lift (th : ℝ) (x : V2) : Option (V3 ℝ) :=
  if norm x = 0 then none else some ⟨Real.tan th / norm x * x.1, Real.tan th / norm x * x.2, 1⟩

/-- `_unproject_points_batch` (lines 261-294) for one point. -/
def unproject (c : Fe) (u : V2) : Option (V3 ℝ) :=
  if c.focal = 0 then none
  else (findXr c (c.focal⁻¹ • (u - c.pp))).bind fun x => (findTh c.k (norm x)).bind fun th => lift th x

/-- `theta_pow * radial_params` (lines 184-185, 426-430): the six powers of theta and a row of `num_radial` parameters are broadcast. -/
def radialOf (params : List ℝ) : Option (Fin 6 → ℝ) :=
  if params.length = 6 then some fun i => params.getD i.val 0
  else if params.length = 1 then some fun _ => params.getD 0 0
  else none

/-! ## Shapes and fields -/

/-- Number of dimensions and sizes of points: `(P, 3)` or `(M, P, 3)`. -/
inductive Shape where
  | single (P : Nat)
  | batch (M P : Nat)

/-- `check_input` (lines 233-257). -/
def checkInput (s : Shape) (N : Nat) : Bool :=
  match s with
  | .single _ => true
  | .batch M _ => !(decide (1 < M) && decide (1 < N))

/-- Shape of the points after `world_to_view_transform.transform_points` with `n` extrinsics (transform3d.py:349-398). -/
def viewShape (n : Nat) : Shape → Option Shape
  | .single P => some (if n = 1 then .single P else .batch n P)
  | .batch M P => if M = n ∨ M = 1 ∨ n = 1 then some (.batch (max M n) P) else none

/-- `transform_points` up to the projection (lines 277-304): `n` rows of R and T, `N` rows of parameters.  `none`: ValueError. -/
def transformOk (world : Bool) (n N : Nat) (s : Shape) : Bool :=
  match (if world then viewShape n s else some s) with
  | none => false
  | some s' => checkInput s' N

/-- The attributes of a batch of cameras.  The focal lengths are stored as `focal`. -/
structure Batch where
  focal : List ℝ
  pp : List V2
  k : List (Fin 6 → ℝ)
  p : List V2
  s : List (Fin 4 → ℝ)
  R : List (M3 ℝ)
  T : List (V3 ℝ)
  world : Bool
  useRadial : Bool
  useTang : Bool
  usePrism : Bool

/-- `cameras[i]` (`cameras.py:395-469` with `_FIELDS` of lines 54-68) on a CPU camera without image size: `focal_length` and
`use_tin_prism` are not attributes, so the new camera has their defaults. -/
def getItem (b : Batch) (i : Nat) : Option Batch :=
  if i < b.R.length then
    match b.pp[i]?, b.k[i]?, b.p[i]?, b.s[i]?, b.R[i]?, b.T[i]? with
    | some pp, some k, some p, some s, some R, some T =>
      some ⟨[1], [pp], [k], [p], [s], [R], [T], b.world, b.useRadial, b.useTang, true⟩
    | _, _, _, _, _, _ => none
  else none

/-- Camera `i` of a batch. -/
def Batch.cam (b : Batch) (i : Nat) : Fe :=
  ⟨b.focal.getD i 0, b.pp.getD i 0, b.k.getD i 0, b.p.getD i 0, b.s.getD i 0, b.useRadial, b.useTang, b.usePrism⟩

/-! ## Points of the plane -/

theorem sq_nonneg' (v : V2) : 0 ≤ sq v := add_nonneg (mul_self_nonneg _) (mul_self_nonneg _)

theorem norm_nonneg (v : V2) : 0 ≤ norm v := Real.sqrt_nonneg _

theorem norm_smul (t : ℝ) (v : V2) : norm (t • v) = |t| * norm v := by
  have : sq (t • v) = t ^ 2 * sq v := by simp only [sq, Prod.smul_fst, Prod.smul_snd, smul_eq_mul]; ring
  unfold norm
  rw [this, Real.sqrt_mul (sq_nonneg t), Real.sqrt_sq_eq_abs]

theorem norm_eq_zero {v : V2} : norm v = 0 ↔ v = 0 := by
  unfold norm
  rw [Real.sqrt_eq_zero (sq_nonneg' v)]
  constructor
  · intro h
    have h1 := mul_self_nonneg v.1
    have h2 := mul_self_nonneg v.2
    unfold sq at h
    ext
    · exact mul_self_eq_zero.mp (by linarith)
    · exact mul_self_eq_zero.mp (by linarith)
  · rintro rfl; simp [sq]

theorem eps_pos : 0 < eps := by unfold eps; positivity

theorem iter_fixed {α : Type} {f : α → Option α} {x : α} (h : f x = some x) (n : Nat) : iter f n x = some x := by
  induction n with
  | zero => rfl
  | succ n ih => simp only [iter, h, Option.bind_some, ih]

/-! ## Projection -/

/-- The direction of a point. -/
def ab (q : V3 ℝ) : V2 := (q.x / q.z, q.y / q.z)

/-- The length of a point. -/
def len (q : V3 ℝ) : ℝ := Real.sqrt (q.x ^ 2 + q.y ^ 2 + q.z ^ 2)

/-- **C82.** Only the line through the centre matters: the depth of a point is lost and points behind the camera are seen as if
they were in front of it. -/
theorem project_line (c : Fe) (q : V3 ℝ) (t : ℝ) (ht : t ≠ 0) : project c ⟨t * q.x, t * q.y, t * q.z⟩ = project c q := by
  unfold project
  by_cases hz : q.z = 0
  · simp [hz]
  · simp only [mul_eq_zero, ht, hz, or_self, if_false, mul_div_mul_left _ _ ht]

theorem radial_eq (k : Fin 6 → ℝ) (v : V2) (h : eps ≤ norm v) :
    radial k v = (poly k (Real.arctan (norm v)) * (Real.arctan (norm v) / norm v)) • v := by
  unfold radial
  dsimp only
  rw [if_neg]
  rw [abs_of_nonneg (norm_nonneg v)]
  exact not_lt.mpr h

theorem norm_radial (k : Fin 6 → ℝ) (v : V2) (h : eps ≤ norm v) :
    norm (radial k v) = |poly k (Real.arctan (norm v))| * Real.arctan (norm v) := by
  have hp : 0 < norm v := lt_of_lt_of_le eps_pos h
  have ha : 0 < Real.arctan (norm v) := Real.arctan_pos.mpr hp
  rw [radial_eq k v h, norm_smul, abs_mul, abs_of_pos (div_pos ha hp), mul_assoc, div_mul_cancel₀ _ hp.ne']

theorem len_eq (q : V3 ℝ) (hz : q.z ≠ 0) : len q = |q.z| * Real.sqrt (1 + norm (ab q) ^ 2) := by
  unfold len norm
  rw [Real.sq_sqrt (sq_nonneg' _), ← Real.sqrt_sq_eq_abs, ← Real.sqrt_mul (sq_nonneg _)]
  congr 1
  simp only [sq, ab]
  field_simp
  ring

/-- **C82.** Without the other distortions a point at the angle `θ` from the optical axis is drawn at the distance
`f θ (1 + k₀ θ² + … + k₅ θ¹²)` from the principal point, in the direction of `(x / z, y / z)`. -/
theorem project_angle (c : Fe) (hr : c.useRadial = true) (ht : c.useTang = false) (hp : c.usePrism = false) (q : V3 ℝ) (hz : q.z ≠ 0)
    (hq : eps ≤ norm (ab q)) (θ : ℝ) (h0 : 0 ≤ θ) (h1 : θ < Real.pi / 2) (hc : Real.cos θ * len q = |q.z|) :
    ∃ u, project c q = some u ∧ u - c.pp = (c.focal * (poly c.k θ * (θ / norm (ab q)))) • ab q
      ∧ norm (u - c.pp) = |c.focal * poly c.k θ| * θ := by
  have hth : θ = Real.arctan (norm (ab q)) := by
    have hz' : 0 < |q.z| := abs_pos.mpr hz
    have hs : 0 < Real.sqrt (1 + norm (ab q) ^ 2) := Real.sqrt_pos.mpr (by positivity)
    have e : Real.cos θ = Real.cos (Real.arctan (norm (ab q))) := by
      rw [Real.cos_arctan]
      rw [len_eq q hz] at hc
      field_simp
      have : |q.z| * (Real.cos θ * Real.sqrt (1 + norm (ab q) ^ 2)) = |q.z| * 1 := by rw [mul_one]; linarith
      exact mul_left_cancel₀ hz'.ne' this
    refine Real.injOn_cos ⟨h0, by linarith [Real.pi_pos]⟩ ⟨Real.arctan_nonneg.mpr (norm_nonneg _), ?_⟩ e
    have := Real.arctan_lt_pi_div_two (norm (ab q))
    linarith [Real.pi_pos]
  have hp0 : 0 < norm (ab q) := lt_of_lt_of_le eps_pos hq
  refine ⟨c.focal • radial c.k (ab q) + c.pp, ?_, ?_, ?_⟩
  · unfold project
    rw [if_neg hz]
    simp only [hr, if_true, extra, ht, hp, Bool.false_eq_true, if_false, add_zero]
    rfl
  · rw [add_sub_cancel_right, radial_eq _ _ hq, ← hth, smul_smul]
  · rw [add_sub_cancel_right, norm_smul, norm_radial _ _ hq, ← hth, abs_mul]
    ring

/-- **C82.** The optical axis is drawn at the principal point, and the principal point cannot be unprojected: the result is NaN. -/
theorem center (c : Fe) (z : ℝ) (hz : z ≠ 0) : project c ⟨0, 0, z⟩ = some c.pp ∧ unproject c c.pp = none := by
  have hx : extra c 0 = 0 := by simp [extra, tang, prism, sq]
  constructor
  · unfold project
    rw [if_neg hz]
    have : ((0 : ℝ) / z, (0 : ℝ) / z) = (0 : V2) := by simp
    simp only [this]
    simp [radial, hx]
  · unfold unproject
    split
    · rfl
    · rw [sub_self, smul_zero]
      have hf : findXr c 0 = some 0 := by
        unfold findXr
        split
        · rfl
        · apply iter_fixed
          unfold stepXr
          rw [hx, add_zero, sub_zero]
          have hj : jac c 0 = ⟨1, 0, 0, 1⟩ := by
            unfold jac
            cases c.useTang <;> cases c.usePrism <;> simp
          rw [hj]
          simp [J2.solve, J2.det]
      rw [hf, Option.bind_some]
      cases findTh c.k (norm 0) with
      | none => rfl
      | some th => simp [lift, norm, sq]

/-! ## Unprojecting projected points -/

/-- **C82.** If the two iterations find what they look for, unprojecting a projected point gives its direction with depth 1. -/
theorem unproject_project (c : Fe) (hr : c.useRadial = true) (hf : c.focal ≠ 0) (q : V3 ℝ) (hz : q.z ≠ 0) (hq : eps ≤ norm (ab q))
    (hpos : 0 < poly c.k (Real.arctan (norm (ab q))))
    (hx : findXr c (radial c.k (ab q) + extra c (radial c.k (ab q))) = some (radial c.k (ab q)))
    (hth : findTh c.k (poly c.k (Real.arctan (norm (ab q))) * Real.arctan (norm (ab q))) = some (Real.arctan (norm (ab q)))) :
    (project c q).bind (unproject c) = some ⟨q.x / q.z, q.y / q.z, 1⟩ := by
  have hp0 : 0 < norm (ab q) := lt_of_lt_of_le eps_pos hq
  have ha : 0 < Real.arctan (norm (ab q)) := Real.arctan_pos.mpr hp0
  have hproj : project c q = some (c.focal • (radial c.k (ab q) + extra c (radial c.k (ab q))) + c.pp) := by
    unfold project
    rw [if_neg hz]
    simp only [hr, if_true]
    rfl
  rw [hproj, Option.bind_some]
  unfold unproject
  rw [if_neg hf, add_sub_cancel_right, smul_smul, inv_mul_cancel₀ hf, one_smul, hx, Option.bind_some]
  have hn : norm (radial c.k (ab q)) = poly c.k (Real.arctan (norm (ab q))) * Real.arctan (norm (ab q)) := by
    rw [norm_radial _ _ hq, abs_of_pos hpos]
  rw [hn, hth, Option.bind_some]
  unfold lift
  have hne : poly c.k (Real.arctan (norm (ab q))) * Real.arctan (norm (ab q)) ≠ 0 := (mul_pos hpos ha).ne'
  rw [hn, if_neg hne, Real.tan_arctan, radial_eq _ _ hq]
  congr 1
  ext
  · simp only [ab, Prod.smul_fst, smul_eq_mul]
    have : norm (q.x / q.z, q.y / q.z) ≠ 0 := hp0.ne'
    have h2 := hpos.ne'
    have h3 := ha.ne'
    simp only [ab] at h2 h3
    field_simp
  · simp only [ab, Prod.smul_snd, smul_eq_mul]
    have : norm (q.x / q.z, q.y / q.z) ≠ 0 := hp0.ne'
    have h2 := hpos.ne'
    have h3 := ha.ne'
    simp only [ab] at h2 h3
    field_simp
  · rfl

theorem findXr_trivial (c : Fe) (hp : c.useTang = true → c.p = 0) (hs : c.usePrism = true → c.s = 0) (x : V2) :
    extra c x = 0 ∧ findXr c x = some x := by
  have hx : ∀ y, extra c y = 0 := by
    intro y
    unfold extra
    cases ht : c.useTang <;> cases hu : c.usePrism <;> simp [tang, prism, ht, hu, hp, hs]
  refine ⟨hx x, ?_⟩
  unfold findXr
  split
  · rfl
  · apply iter_fixed
    unfold stepXr
    rw [hx, add_zero, sub_self]
    have hj : jac c x = ⟨1, 0, 0, 1⟩ := by
      unfold jac
      cases ht : c.useTang <;> cases hu : c.usePrism <;> simp [ht, hu, hp, hs]
    rw [hj]
    simp [J2.solve, J2.det]

theorem findTh_zero (want : ℝ) (h0 : 0 ≤ want) (h : want < Real.pi / 2) : findTh 0 want = some want := by
  apply iter_fixed
  unfold stepTh
  have hd : dpoly 0 want = 1 := by simp [dpoly]
  have hp : poly 0 want = 1 := by simp [poly]
  have he : eps < |(1 : ℝ)| := by unfold eps; norm_num
  simp only [hd, hp]
  rw [if_neg one_ne_zero, if_pos he, one_mul, sub_self, zero_div, add_zero]
  unfold clampTh
  rw [if_neg]
  rw [abs_of_nonneg h0]
  exact not_le.mpr h

/-- **C82.** Without distortion parameters the round trip is exact, away from the optical axis. -/
theorem roundtrip_plain (c : Fe) (hr : c.useRadial = true) (hf : c.focal ≠ 0) (hk : c.k = 0) (hp : c.useTang = true → c.p = 0)
    (hs : c.usePrism = true → c.s = 0) (q : V3 ℝ) (hz : q.z ≠ 0) (hq : eps ≤ norm (ab q)) :
    (project c q).bind (unproject c) = some ⟨q.x / q.z, q.y / q.z, 1⟩ := by
  have hone : poly c.k (Real.arctan (norm (ab q))) = 1 := by rw [hk]; simp [poly]
  refine unproject_project c hr hf q hz hq (by rw [hone]; exact one_pos) ?_ ?_
  · rw [(findXr_trivial c hp hs _).1, add_zero, (findXr_trivial c hp hs _).2]
  · rw [hone, one_mul, hk]
    exact findTh_zero _ (Real.arctan_nonneg.mpr (norm_nonneg _)) (Real.arctan_lt_pi_div_two _)

/-- **C82.** With `use_radial=False` `project` is a pinhole camera but `unproject` still undoes the fisheye mapping: a point at
distance `r < π / 2` from the axis comes back at distance `tan r > r`. -/
theorem no_radial (c : Fe) (hr : c.useRadial = false) (ht : c.useTang = false) (hp : c.usePrism = false) (hf : c.focal ≠ 0) (hk : c.k = 0)
    (q : V3 ℝ) (hz : q.z ≠ 0) (h0 : 0 < norm (ab q)) (h1 : norm (ab q) < Real.pi / 2) :
    (project c q).bind (unproject c) = some ⟨Real.tan (norm (ab q)) / norm (ab q) * (q.x / q.z), Real.tan (norm (ab q)) / norm (ab q) * (q.y / q.z), 1⟩
      ∧ 1 < Real.tan (norm (ab q)) / norm (ab q) := by
  have hproj : project c q = some (c.focal • ab q + c.pp) := by
    unfold project
    rw [if_neg hz]
    simp only [hr, extra, ht, hp, Bool.false_eq_true, if_false, add_zero]
    rfl
  refine ⟨?_, ?_⟩
  · rw [hproj, Option.bind_some]
    unfold unproject
    rw [if_neg hf, add_sub_cancel_right, smul_smul, inv_mul_cancel₀ hf, one_smul]
    rw [(findXr_trivial c (by simp [ht]) (by simp [hp]) _).2, Option.bind_some, hk, findTh_zero _ h0.le h1, Option.bind_some]
    unfold lift
    rw [if_neg h0.ne']
    rfl
  · rw [one_lt_div h0]
    exact Real.lt_tan h0 h1

/-! ## Projecting unprojected points -/

theorem stepXr_fixed {c : Fe} {uv x : V2} (h : stepXr c uv x = some x) : x + extra c x = uv := by
  unfold stepXr J2.solve at h
  split at h
  · cases h
  · rename_i hd
    simp only [Option.map_some, Option.some.injEq] at h
    set v := uv - (x + extra c x) with hv
    have e1 : (jac c x).d * v.1 - (jac c x).b * v.2 = 0 := by
      have := congrArg Prod.fst h
      simp only [Prod.fst_add, add_eq_left] at this
      exact (div_eq_zero_iff.mp this).resolve_right hd
    have e2 : (jac c x).a * v.2 - (jac c x).c * v.1 = 0 := by
      have := congrArg Prod.snd h
      simp only [Prod.snd_add, add_eq_left] at this
      exact (div_eq_zero_iff.mp this).resolve_right hd
    have v1 : (jac c x).det * v.1 = 0 := by unfold J2.det; linear_combination (jac c x).a * e1 + (jac c x).b * e2
    have v2 : (jac c x).det * v.2 = 0 := by unfold J2.det; linear_combination (jac c x).d * e2 + (jac c x).c * e1
    have hv0 : v = 0 := by
      ext
      · exact (mul_eq_zero.mp v1).resolve_left hd
      · exact (mul_eq_zero.mp v2).resolve_left hd
    rw [hv, sub_eq_zero] at hv0
    exact hv0.symm

theorem stepTh_fixed {k : Fin 6 → ℝ} {want th : ℝ} (h : stepTh k want th = some th) (hc : th ≠ 999 / 1000 * Real.pi / 2) :
    poly k th * th = want ∧ |th| < Real.pi / 2 := by
  have hclamp : ∀ y, clampTh y = th → y = th ∧ |th| < Real.pi / 2 := by
    intro y hy
    unfold clampTh at hy
    split at hy
    · exact absurd hy.symm hc
    · rename_i hlt
      subst hy
      exact ⟨rfl, not_le.mp hlt⟩
  unfold stepTh at h
  dsimp only at h
  split at h
  · cases h
  · rename_i hd
    split at h
    · obtain ⟨e, hb⟩ := hclamp _ (Option.some.inj h)
      rw [add_eq_left, div_eq_zero_iff, or_iff_left hd, sub_eq_zero] at e
      exact ⟨e.symm, hb⟩
    · obtain ⟨e, -⟩ := hclamp _ (Option.some.inj h)
      rw [add_eq_left] at e
      have := eps_pos
      split at e <;> linarith

/-- **C82.** Wherever the iterations have come to rest (not at the clamping value), projecting the unprojected point gives the
image point back. -/
theorem project_unproject (c : Fe) (hr : c.useRadial = true) (hf : c.focal ≠ 0) (u : V2) (x : V2) (th : ℝ) (q : V3 ℝ)
    (hx : stepXr c (c.focal⁻¹ • (u - c.pp)) x = some x) (hth : stepTh c.k (norm x) th = some th) (hc : th ≠ 999 / 1000 * Real.pi / 2)
    (h0 : 0 ≤ th) (hq : lift th x = some q) (ht : eps ≤ Real.tan th) : project c q = some u := by
  have hxe := stepXr_fixed hx
  obtain ⟨hp, hb⟩ := stepTh_fixed hth hc
  rw [abs_of_nonneg h0] at hb
  unfold lift at hq
  split at hq
  · cases hq
  · rename_i hn
    rw [Option.some.injEq] at hq
    have hnp : 0 < norm x := lt_of_le_of_ne (norm_nonneg x) (Ne.symm hn)
    have hab : ab q = (Real.tan th / norm x) • x := by
      subst hq
      ext <;> simp [ab]
    have htp : 0 < Real.tan th := lt_of_lt_of_le eps_pos ht
    have hnab : norm (ab q) = Real.tan th := by
      rw [hab, norm_smul, abs_of_pos (div_pos htp hnp), div_mul_cancel₀ _ hn]
    have hat : Real.arctan (norm (ab q)) = th := by
      rw [hnab]
      exact Real.arctan_tan (by linarith [Real.pi_pos]) hb
    have hrad : radial c.k (ab q) = x := by
      rw [radial_eq _ _ (by rw [hnab]; exact ht), hat, hnab, hab, smul_smul]
      have : poly c.k th * (th / Real.tan th) * (Real.tan th / norm x) = 1 := by
        have h2 := htp.ne'
        rw [← hp] at hn ⊢
        have h3 : poly c.k th ≠ 0 := left_ne_zero_of_mul hn
        have h4 : th ≠ 0 := right_ne_zero_of_mul hn
        field_simp
      rw [this, one_smul]
    have hz : q.z = 1 := by subst hq; rfl
    unfold project
    rw [if_neg (by rw [hz]; exact one_ne_zero)]
    simp only [hr, if_true]
    show some (c.focal • (radial c.k (ab q) + extra c (radial c.k (ab q))) + c.pp) = some u
    rw [hrad, hxe, smul_smul, mul_inv_cancel₀ hf, one_smul, sub_add_cancel]

/-! ## The Jacobian -/

theorem hd_poly4 (a0 a1 a2 a3 a4 x : ℝ) : HasDerivAt (fun t : ℝ => a0 + a1 * t + a2 * t ^ 2 + a3 * t ^ 3 + a4 * t ^ 4)
    (a1 + a2 * (2 * x) + a3 * (3 * x ^ 2) + a4 * (4 * x ^ 3)) x := by
  have h1 := ((hasDerivAt_id x).const_mul a1).const_add a0
  have h2 := ((hasDerivAt_pow 2 x).const_mul a2)
  have h3 := ((hasDerivAt_pow 3 x).const_mul a3)
  have h4 := ((hasDerivAt_pow 4 x).const_mul a4)
  have h := ((h1.add h2).add h3).add h4
  refine h.congr_deriv ?_
  push_cast
  ring

theorem hd_of {f : ℝ → ℝ} {d x : ℝ} (a0 a1 a2 a3 a4 : ℝ) (hf : ∀ t, f t = a0 + a1 * t + a2 * t ^ 2 + a3 * t ^ 3 + a4 * t ^ 4)
    (hd : d = a1 + a2 * (2 * x) + a3 * (3 * x ^ 2) + a4 * (4 * x ^ 3)) : HasDerivAt f d x := by
  have : f = fun t : ℝ => a0 + a1 * t + a2 * t ^ 2 + a3 * t ^ 3 + a4 * t ^ 4 := funext hf
  rw [this, hd]
  exact hd_poly4 a0 a1 a2 a3 a4 x

def b2r (b : Bool) : ℝ := if b then 1 else 0

theorem dist_eq (c : Fe) (x : V2) :
    x + extra c x = (x.1 + b2r c.useTang * (2 * (x.1 * c.p.1 + x.2 * c.p.2) * x.1 + (x.1 * x.1 + x.2 * x.2) * c.p.1)
        + b2r c.usePrism * (c.s 0 * (x.1 * x.1 + x.2 * x.2) + c.s 1 * ((x.1 * x.1 + x.2 * x.2) * (x.1 * x.1 + x.2 * x.2))),
      x.2 + b2r c.useTang * (2 * (x.1 * c.p.1 + x.2 * c.p.2) * x.2 + (x.1 * x.1 + x.2 * x.2) * c.p.2)
        + b2r c.usePrism * (c.s 2 * (x.1 * x.1 + x.2 * x.2) + c.s 3 * ((x.1 * x.1 + x.2 * x.2) * (x.1 * x.1 + x.2 * x.2)))) := by
  unfold extra b2r
  cases c.useTang <;> cases c.usePrism <;> ext <;> simp [tang, prism, sq] <;> ring

theorem jac_eq (c : Fe) (x : V2) :
    jac c x = ⟨1 + b2r c.useTang * (6 * x.1 * c.p.1 + 2 * x.2 * c.p.2) + b2r c.usePrism * (x.1 * (2 * (c.s 0 + 2 * c.s 1 * sq x))),
      b2r c.useTang * (2 * (x.1 * c.p.2 + x.2 * c.p.1)) + b2r c.usePrism * (x.2 * (2 * (c.s 0 + 2 * c.s 1 * sq x))),
      b2r c.useTang * (2 * (x.1 * c.p.2 + x.2 * c.p.1)) + b2r c.usePrism * (x.1 * (2 * (c.s 2 + 2 * c.s 3 * sq x))),
      1 + b2r c.useTang * (6 * x.2 * c.p.2 + 2 * x.1 * c.p.1) + b2r c.usePrism * (x.2 * (2 * (c.s 2 + 2 * c.s 3 * sq x)))⟩ := by
  unfold jac b2r
  cases c.useTang <;> cases c.usePrism <;> simp [add_assoc]

/-- **C82.** The matrix of the Newton step holds the partial derivatives of the distortion, whatever distortions are switched on. -/
theorem jac_deriv (c : Fe) (x y : ℝ) :
    HasDerivAt (fun t => ((t, y) + extra c (t, y) : V2).1) (jac c (x, y)).a x
      ∧ HasDerivAt (fun t => ((x, t) + extra c (x, t) : V2).1) (jac c (x, y)).b y
      ∧ HasDerivAt (fun t => ((t, y) + extra c (t, y) : V2).2) (jac c (x, y)).c x
      ∧ HasDerivAt (fun t => ((x, t) + extra c (x, t) : V2).2) (jac c (x, y)).d y := by
  simp only [dist_eq, jac_eq, sq]
  generalize b2r c.useTang = τ
  generalize b2r c.usePrism = σ
  generalize c.p.1 = p
  generalize c.p.2 = q
  generalize c.s 0 = s
  generalize c.s 1 = t
  generalize c.s 2 = u
  generalize c.s 3 = v
  refine ⟨?_, ?_, ?_, ?_⟩
  · exact hd_of (τ * y ^ 2 * p + σ * (s * y ^ 2 + t * y ^ 4)) (1 + τ * 2 * y * q) (3 * τ * p + σ * (s + 2 * t * y ^ 2)) 0 (σ * t)
      (fun t => by ring) (by ring)
  · exact hd_of (x + 3 * τ * p * x ^ 2 + σ * (s * x ^ 2 + t * x ^ 4)) (τ * 2 * x * q) (τ * p + σ * (s + 2 * t * x ^ 2)) 0 (σ * t)
      (fun t => by ring) (by ring)
  · exact hd_of (y + 3 * τ * q * y ^ 2 + σ * (u * y ^ 2 + v * y ^ 4)) (τ * 2 * y * p) (τ * q + σ * (u + 2 * v * y ^ 2)) 0 (σ * v)
      (fun t => by ring) (by ring)
  · exact hd_of (τ * x ^ 2 * q + σ * (u * x ^ 2 + v * x ^ 4)) (1 + τ * 2 * x * p) (3 * τ * q + σ * (u + 2 * v * x ^ 2)) 0 (σ * v)
      (fun t => by ring) (by ring)

/-! ## Convergence of the iteration for theta -/

theorem pow_tangent {ρ t : ℝ} (h0 : 0 ≤ ρ) (h : ρ ≤ t) (m : Nat) :
    0 ≤ t ^ (m + 1) - ρ ^ (m + 1) ∧ t ^ (m + 1) - ρ ^ (m + 1) ≤ ((m : ℝ) + 1) * t ^ m * (t - ρ) := by
  refine ⟨sub_nonneg.mpr (pow_le_pow_left₀ h0 h _), ?_⟩
  induction m with
  | zero => simp
  | succ m ih =>
    have ht : 0 ≤ t := h0.trans h
    have hp : ρ ^ (m + 1) ≤ t ^ (m + 1) := pow_le_pow_left₀ h0 h _
    have e : t ^ (m + 1 + 1) - ρ ^ (m + 1 + 1) = t * (t ^ (m + 1) - ρ ^ (m + 1)) + ρ ^ (m + 1) * (t - ρ) := by ring
    have h1 := mul_le_mul_of_nonneg_left ih ht
    have h2 := mul_le_mul_of_nonneg_right hp (sub_nonneg.mpr h)
    rw [e]
    push_cast
    have e2 : t * (((m : ℝ) + 1) * t ^ m * (t - ρ)) = ((m : ℝ) + 1) * t ^ (m + 1) * (t - ρ) := by ring
    rw [e2] at h1
    nlinarith

theorem poly_mul (k : Fin 6 → ℝ) (t : ℝ) : poly k t * t = t + ∑ i : Fin 6, k i * t ^ (2 * i.val + 2 + 1) := by
  unfold poly
  rw [add_mul, one_mul, Finset.sum_mul]
  congr 1
  refine Finset.sum_congr rfl fun i _ => ?_
  rw [← pow_two, ← pow_mul]
  ring

theorem dpoly_eq (k : Fin 6 → ℝ) (t : ℝ) : dpoly k t = 1 + ∑ i : Fin 6, k i * (((2 * i.val + 2 : Nat) : ℝ) + 1) * t ^ (2 * i.val + 2) := by
  unfold dpoly
  congr 1
  refine Finset.sum_congr rfl fun i _ => ?_
  rw [← pow_two, ← pow_mul]
  push_cast
  ring

/-- **C82.** `dthD_dth` is the derivative of the distorted angle. -/
theorem dpoly_deriv (k : Fin 6 → ℝ) (t : ℝ) : HasDerivAt (fun x => poly k x * x) (dpoly k t) t := by
  have : (fun x => poly k x * x) = fun x => x + ∑ i : Fin 6, k i * x ^ (2 * i.val + 2 + 1) := funext (poly_mul k)
  rw [this, dpoly_eq]
  refine (hasDerivAt_id t).add ?_
  refine HasDerivAt.fun_sum fun i _ => ?_
  refine ((hasDerivAt_pow (2 * i.val + 2 + 1) t).const_mul (k i)).congr_deriv ?_
  rw [Nat.add_sub_cancel]
  push_cast
  ring

theorem poly_slope {k : Fin 6 → ℝ} (hk : ∀ i, 0 ≤ k i) {ρ t : ℝ} (h0 : 0 ≤ ρ) (h : ρ ≤ t) :
    t - ρ ≤ poly k t * t - poly k ρ * ρ ∧ poly k t * t - poly k ρ * ρ ≤ dpoly k t * (t - ρ) := by
  have e : poly k t * t - poly k ρ * ρ = (t - ρ) + ∑ i : Fin 6, k i * (t ^ (2 * i.val + 2 + 1) - ρ ^ (2 * i.val + 2 + 1)) := by
    rw [poly_mul, poly_mul]
    simp only [mul_sub, Finset.sum_sub_distrib]
    ring
  rw [e]
  constructor
  · have : 0 ≤ ∑ i : Fin 6, k i * (t ^ (2 * i.val + 2 + 1) - ρ ^ (2 * i.val + 2 + 1)) :=
      Finset.sum_nonneg fun i _ => mul_nonneg (hk i) (pow_tangent h0 h _).1
    linarith
  · rw [dpoly_eq, add_mul, one_mul, Finset.sum_mul]
    refine add_le_add le_rfl (Finset.sum_le_sum fun i _ => ?_)
    have := mul_le_mul_of_nonneg_left (pow_tangent h0 h (2 * i.val + 2)).2 (hk i)
    calc _ ≤ _ := this
      _ = _ := by ring

theorem dpoly_mono {k : Fin 6 → ℝ} (hk : ∀ i, 0 ≤ k i) {t w : ℝ} (h0 : 0 ≤ t) (h : t ≤ w) : 1 ≤ dpoly k t ∧ dpoly k t ≤ dpoly k w := by
  rw [dpoly_eq, dpoly_eq]
  constructor
  · refine le_add_of_nonneg_right (Finset.sum_nonneg fun i _ => ?_)
    exact mul_nonneg (mul_nonneg (hk i) (by positivity)) (pow_nonneg h0 _)
  · refine add_le_add le_rfl (Finset.sum_le_sum fun i _ => ?_)
    exact mul_le_mul_of_nonneg_left (pow_le_pow_left₀ h0 h _) (mul_nonneg (hk i) (by positivity))

theorem stepTh_bound {k : Fin 6 → ℝ} (hk : ∀ i, 0 ≤ k i) {ρ w t : ℝ} (h0 : 0 ≤ ρ) (hπ : ρ ≤ 999 / 1000 * Real.pi / 2) (h1 : ρ ≤ t) (h2 : t ≤ w) :
    ∃ t', stepTh k (poly k ρ * ρ) t = some t' ∧ ρ ≤ t' ∧ t' ≤ t ∧ t' - ρ ≤ (1 - 1 / dpoly k w) * (t - ρ) := by
  have ht : 0 ≤ t := h0.trans h1
  obtain ⟨d1, d2⟩ := dpoly_mono hk ht h2
  have dpos : 0 < dpoly k t := by linarith
  have wpos : 0 < dpoly k w := by linarith
  obtain ⟨s1, s2⟩ := poly_slope hk h0 h1
  set y := t + (poly k ρ * ρ - poly k t * t) / dpoly k t with hy
  have hstep : stepTh k (poly k ρ * ρ) t = some (clampTh y) := by
    unfold stepTh
    dsimp only
    rw [if_neg dpos.ne', if_pos]
    rw [abs_of_pos dpos]
    have : eps < 1 := by unfold eps; norm_num
    linarith
  have y1 : ρ ≤ y := by
    have : (poly k t * t - poly k ρ * ρ) / dpoly k t ≤ t - ρ := by rw [div_le_iff₀ dpos]; linarith
    have e : y = t - (poly k t * t - poly k ρ * ρ) / dpoly k t := by rw [hy]; ring
    linarith
  have y2 : y - ρ ≤ (1 - 1 / dpoly k w) * (t - ρ) := by
    have a1 : (t - ρ) / dpoly k w ≤ (t - ρ) / dpoly k t := div_le_div_of_nonneg_left (by linarith) dpos d2
    have a2 : (t - ρ) / dpoly k t ≤ (poly k t * t - poly k ρ * ρ) / dpoly k t := div_le_div_of_nonneg_right s1 dpos.le
    have e : y = t - (poly k t * t - poly k ρ * ρ) / dpoly k t := by rw [hy]; ring
    have e2 : (1 - 1 / dpoly k w) * (t - ρ) = (t - ρ) - (t - ρ) / dpoly k w := by ring
    linarith
  have y3 : y ≤ t := by
    have a2 : 0 ≤ (poly k t * t - poly k ρ * ρ) / dpoly k t := div_nonneg (by linarith) dpos.le
    have e : y = t - (poly k t * t - poly k ρ * ρ) / dpoly k t := by rw [hy]; ring
    linarith
  have c1 : ρ ≤ clampTh y ∧ clampTh y ≤ y := by
    unfold clampTh
    split
    · rename_i hc
      rw [abs_of_nonneg (h0.trans y1)] at hc
      exact ⟨hπ, by linarith [Real.pi_pos]⟩
    · exact ⟨y1, le_rfl⟩
  exact ⟨clampTh y, hstep, c1.1, c1.2.trans y3, by linarith [c1.2]⟩

/-- **C82.** For non-negative radial parameters the iteration for theta approaches the angle sought from above, by at least a
constant factor in each step, and never divides by zero, provided that the angle is at most 89.91 degrees. -/
theorem theta_converges {k : Fin 6 → ℝ} (hk : ∀ i, 0 ≤ k i) {ρ : ℝ} (h0 : 0 ≤ ρ) (hπ : ρ ≤ 999 / 1000 * Real.pi / 2) (n : Nat) :
    ∃ th, iter (stepTh k (poly k ρ * ρ)) n (poly k ρ * ρ) = some th ∧ ρ ≤ th
      ∧ th - ρ ≤ (1 - 1 / dpoly k (poly k ρ * ρ)) ^ n * (poly k ρ * ρ - ρ) := by
  have hw : ρ ≤ poly k ρ * ρ := by
    have := (poly_slope hk le_rfl h0).1
    simpa using this
  set w := poly k ρ * ρ with hwd
  have d1 := (dpoly_mono hk (h0.trans hw) le_rfl).1
  have hr : 0 ≤ 1 - 1 / dpoly k w := by
    have : 1 / dpoly k w ≤ 1 := by rw [div_le_one (by linarith)]; exact d1
    linarith
  suffices H : ∀ n t, ρ ≤ t → t ≤ w → ∃ th, iter (stepTh k w) n t = some th ∧ ρ ≤ th ∧ th - ρ ≤ (1 - 1 / dpoly k w) ^ n * (t - ρ) from
    H n w hw le_rfl
  intro n
  induction n with
  | zero => intro t h1 _; exact ⟨t, rfl, h1, by simp⟩
  | succ n ih =>
    intro t h1 h2
    obtain ⟨t', e, a, b, c⟩ := stepTh_bound hk h0 hπ h1 h2
    obtain ⟨th, e', a', c'⟩ := ih t' a (b.trans h2)
    refine ⟨th, ?_, a', ?_⟩
    · simp only [iter]
      rw [hwd, e, Option.bind_some, ← hwd]
      exact e'
    · calc th - ρ ≤ _ := c'
        _ ≤ (1 - 1 / dpoly k w) ^ n * ((1 - 1 / dpoly k w) * (t - ρ)) := mul_le_mul_of_nonneg_left c (pow_nonneg hr n)
        _ = _ := by ring

/-- **C82.** With radial distortion only and non-negative parameters, unprojecting a projected point gives a point at depth 1 in the
same direction from the axis; its angle from the axis is not smaller than the true one and the error is bounded. -/
theorem roundtrip_radial (c : Fe) (hr : c.useRadial = true) (ht : c.useTang = false) (hp : c.usePrism = false) (hf : c.focal ≠ 0)
    (hk : ∀ i, 0 ≤ c.k i) (q : V3 ℝ) (hz : q.z ≠ 0) (hq : eps ≤ norm (ab q)) (hπ : Real.arctan (norm (ab q)) ≤ 999 / 1000 * Real.pi / 2) :
    ∃ th, (project c q).bind (unproject c) = some ⟨Real.tan th / norm (ab q) * (q.x / q.z), Real.tan th / norm (ab q) * (q.y / q.z), 1⟩
      ∧ Real.arctan (norm (ab q)) ≤ th
      ∧ th - Real.arctan (norm (ab q)) ≤ (1 - 1 / dpoly c.k (poly c.k (Real.arctan (norm (ab q))) * Real.arctan (norm (ab q)))) ^ 50
          * (poly c.k (Real.arctan (norm (ab q))) * Real.arctan (norm (ab q)) - Real.arctan (norm (ab q))) := by
  have hp0 : 0 < norm (ab q) := lt_of_lt_of_le eps_pos hq
  have ha : 0 < Real.arctan (norm (ab q)) := Real.arctan_pos.mpr hp0
  have hpos : 0 < poly c.k (Real.arctan (norm (ab q))) := by
    unfold poly
    have : 0 ≤ ∑ i : Fin 6, (Real.arctan (norm (ab q)) * Real.arctan (norm (ab q))) ^ (i.val + 1) * c.k i :=
      Finset.sum_nonneg fun i _ => mul_nonneg (pow_nonneg (mul_self_nonneg _) _) (hk i)
    linarith
  obtain ⟨th, e, h1, h2⟩ := theta_converges hk ha.le hπ 50
  refine ⟨th, ?_, h1, h2⟩
  have hproj : project c q = some (c.focal • radial c.k (ab q) + c.pp) := by
    unfold project
    rw [if_neg hz]
    simp only [hr, if_true, extra, ht, hp, Bool.false_eq_true, if_false, add_zero]
    rfl
  rw [hproj, Option.bind_some]
  unfold unproject
  rw [if_neg hf, add_sub_cancel_right, smul_smul, inv_mul_cancel₀ hf, one_smul,
    (findXr_trivial c (by simp [ht]) (by simp [hp]) _).2, Option.bind_some]
  have hn : norm (radial c.k (ab q)) = poly c.k (Real.arctan (norm (ab q))) * Real.arctan (norm (ab q)) := by
    rw [norm_radial _ _ hq, abs_of_pos hpos]
  unfold findTh lift
  rw [hn, e, Option.bind_some]
  have hne : poly c.k (Real.arctan (norm (ab q))) * Real.arctan (norm (ab q)) ≠ 0 := (mul_pos hpos ha).ne'
  rw [if_neg hne, radial_eq _ _ hq]
  have h2 := hpos.ne'
  have h3 := ha.ne'
  have h4 := hp0.ne'
  generalize poly c.k (Real.arctan (norm (ab q))) = A at *
  generalize Real.arctan (norm (ab q)) = B at *
  generalize norm (ab q) = C at *
  congr 1
  ext
  · simp only [ab, Prod.smul_fst, smul_eq_mul]
    field_simp
  · simp only [ab, Prod.smul_snd, smul_eq_mul]
    field_simp
  · rfl

/-- **C82.** The mask which should prevent a division by zero does not: where the derivative vanishes the result is NaN.  It does
vanish, for `k₀ = -1 / 3` at one radian. -/
theorem theta_nan (k : Fin 6 → ℝ) (want th : ℝ) :
    (stepTh k want th = none ↔ dpoly k th = 0) ∧ (dpoly k want = 0 → findTh k want = none)
      ∧ findTh (fun i => if i = 0 then -1 / 3 else 0) 1 = none := by
  have h1 : stepTh k want th = none ↔ dpoly k th = 0 := by
    unfold stepTh
    dsimp only
    split
    · simp_all
    · split <;> simp_all
  have h2 : ∀ (k : Fin 6 → ℝ) want, dpoly k want = 0 → findTh k want = none := by
    intro k want h
    unfold findTh
    simp only [iter]
    have : stepTh k want want = none := by unfold stepTh; dsimp only; rw [if_pos h]
    rw [this, Option.bind_none]
  refine ⟨h1, h2 k want, h2 _ _ ?_⟩
  simp [dpoly]
  norm_num

/-! ## Shapes and fields -/

/-- **C82.** A batch of cameras with world coordinates can never project anything: the points become a batch and a batch of points is
refused for a batch of parameters.  In camera coordinates a batch of cameras takes unbatched points only. -/
theorem world_batch (n N : Nat) (hn : 1 < n) (hN : 1 < N) (s : Shape) : transformOk true n N s = false := by
  cases s with
  | single P =>
    have : n ≠ 1 := by omega
    simp [transformOk, viewShape, this, checkInput, hn, hN]
  | batch M P =>
    simp only [transformOk, viewShape]
    split
    · rfl
    · rename_i s' h
      simp only [if_true] at h
      split at h
      · cases h
        have : 1 < max M n := lt_of_lt_of_le hn (le_max_right _ _)
        simp only [checkInput, this, hN]
        rfl
      · cases h

theorem camera_batch (n N M P : Nat) : (transformOk false n N (.batch M P) = true ↔ M ≤ 1 ∨ N ≤ 1) ∧ transformOk false n N (.single P) = true := by
  simp only [transformOk, checkInput, Bool.false_eq_true, if_false]
  constructor
  · by_cases h1 : 1 < M <;> by_cases h2 : 1 < N <;> simp [h1, h2] <;> omega
  · trivial

/-- **C82.** Indexing a batch of cameras loses the focal length and switches the thin prism on. -/
theorem getItem_cam {b b' : Batch} {i : Nat} (h : getItem b i = some b') :
    b'.cam 0 = { b.cam i with focal := 1, usePrism := true } := by
  unfold getItem at h
  split at h
  · split at h
    · rename_i pp k p s R T h1 h2 h3 h4 h5 h6
      cases h
      simp only [Batch.cam, List.getD_eq_getElem?_getD, h1, h2, h3, h4]
      rfl
    · cases h
  · cases h

/-- **C82.** For a camera with the thin prism on, the selected camera draws a point at `uv + pp` instead of `f uv + pp`. -/
theorem getItem_project {b b' : Batch} {i : Nat} (h : getItem b i = some b') (hp : b.usePrism = true) (q : V3 ℝ) (hz : q.z ≠ 0) :
    ∃ uv : V2, project (b.cam i) q = some ((b.cam i).focal • uv + (b.cam i).pp) ∧ project (b'.cam 0) q = some (uv + (b.cam i).pp) := by
  rw [getItem_cam h]
  have e : (b.cam i).usePrism = true := hp
  generalize b.cam i = c at e ⊢
  refine ⟨(if c.useRadial then radial c.k (ab q) else ab q) + extra c (radial c.k (ab q)), ?_, ?_⟩
  · unfold project
    rw [if_neg hz]
    rfl
  · unfold project
    rw [if_neg hz]
    dsimp only
    rw [one_smul]
    have : extra { c with focal := 1, usePrism := true } (radial c.k (q.x / q.z, q.y / q.z)) = extra c (radial c.k (ab q)) := by
      unfold extra
      rw [e]
      rfl
    rw [this]
    rfl

/-- **C82.** The documentation allows any number of radial parameters; numbers other than one and six raise, and a single one stands
for all six powers instead of the first. -/
theorem radial_params (l : List ℝ) :
    ((radialOf l).isSome = true ↔ l.length = 6 ∨ l.length = 1)
      ∧ ∀ a th, radialOf [a] = some (fun _ => a) ∧ poly (fun _ => a) th = 1 + a * ∑ i : Fin 6, th ^ (2 * (i.val + 1)) := by
  constructor
  · unfold radialOf
    split
    · simp_all
    · split <;> simp_all
  · intro a th
    refine ⟨by simp [radialOf], ?_⟩
    unfold poly
    rw [Finset.mul_sum]
    congr 1
    refine Finset.sum_congr rfl fun i _ => ?_
    rw [pow_mul, pow_two]
    ring

/-! ## Examples -/

/-- A camera with focal length 500, principal point (320, 240) and no parameters. -/
def plain : Fe := ⟨500, (320, 240), 0, 0, 0, true, true, true⟩

theorem eps_le_one : eps ≤ 1 := by unfold eps; norm_num

-- the round trip of (2, 0, 2): depth is lost
example : (project plain ⟨2, 0, 2⟩).bind (unproject plain) = some ⟨1, 0, 1⟩ := by
  have := roundtrip_plain plain rfl (by norm_num [plain]) rfl (fun _ => rfl) (fun _ => rfl) ⟨2, 0, 2⟩ (by norm_num)
    (by have : norm (ab ⟨2, 0, 2⟩) = 1 := by simp [norm, ab, sq]
        rw [this]; exact eps_le_one)
  simpa using this

-- 45 degrees are drawn at 500 π / 4 from the principal point
example : project plain ⟨2, 0, 2⟩ = some (500 * (Real.pi / 4) + 320, 240) := by
  have e1 : norm ((1 : ℝ), (0 : ℝ)) = 1 := by simp [norm, sq]
  have e2 : ¬ ((1 : ℝ) < eps) := not_lt.mpr eps_le_one
  simp only [project, plain, radial, extra, tang, prism, sq]
  norm_num [e1, e2, poly, Real.arctan_one]

-- the point behind the camera is drawn at the same place
example : project plain ⟨-2, 0, -2⟩ = project plain ⟨2, 0, 2⟩ := by
  have := project_line plain ⟨2, 0, 2⟩ (-1) (by norm_num)
  norm_num at this
  exact this

-- two cameras with world coordinates refuse five points; with camera coordinates they take them
example : transformOk true 2 2 (.single 5) = false ∧ transformOk false 2 2 (.single 5) = true ∧ transformOk true 1 1 (.batch 4 5) = true := by decide

-- the iteration for one radian and k₀ = 1 / 10: the error after 50 steps is bounded by (1 - 1 / d)^50 / 10
example : ∃ th, findTh (fun i => if i = 0 then 1 / 10 else 0) (11 / 10) = some th ∧ 1 ≤ th ∧ th - 1 ≤ (363 / 1363) ^ 50 * (1 / 10) := by
  have hp : poly (fun i : Fin 6 => if i = 0 then (1 : ℝ) / 10 else 0) 1 * 1 = 11 / 10 := by
    simp [poly]; norm_num
  have hd : dpoly (fun i : Fin 6 => if i = 0 then (1 : ℝ) / 10 else 0) (11 / 10) = 1363 / 1000 := by
    simp [dpoly]; norm_num
  obtain ⟨th, h1, h2, h3⟩ := theta_converges (k := fun i : Fin 6 => if i = 0 then (1 : ℝ) / 10 else 0)
    (fun i => by split <;> norm_num) (ρ := 1) zero_le_one (by linarith [Real.pi_gt_three]) 50
  rw [hp] at h1 h3
  rw [hd] at h3
  refine ⟨th, h1, h2, ?_⟩
  norm_num at h3 ⊢
  exact h3

end

end P3D.FishEye
