/-
`implicitron/models/renderer/ray_tracing.py` (sphere tracing, sampling, secant method) and the masks, points and implicit
differentiation of `sdf_renderer.py`.  Rays are listed flat (B * N); the signed distance function is any function of a
point.  `n_steps` is at least one (`argmin` of nothing raises).  The random numbers of `minimal_sdf_points` are an argument.
-/
import Verif.Vec3
import Verif.Rotations
import Mathlib.Algebra.Order.Field.Basic
import Mathlib.Tactic.Linarith
import Mathlib.Tactic.Ring
import Mathlib.Tactic.FieldSimp
import Mathlib.Tactic.NormNum
import Mathlib.Tactic.LinearCombination
import Mathlib.Topology.Order.IntermediateValue
import Mathlib.Analysis.Calculus.Deriv.Mul
import Mathlib.Analysis.Calculus.Deriv.Add
import Mathlib.Analysis.SpecialFunctions.Sqrt

set_option linter.unusedSectionVars false
set_option linter.unusedSimpArgs false
set_option linter.unusedVariables false

namespace P3D.SphereTrace

variable {K : Type} [Field K] [LinearOrder K] [IsStrictOrderedRing K]

/-- A ray: origin and direction. -/
structure Ray (K : Type) where
  o : V3 K
  d : V3 K
  deriving DecidableEq

/-- The point of a ray at distance `t`. -/
def Ray.at (r : Ray K) (t : K) : V3 K := r.o + t • r.d

/-- The fields of `RayTracing` (ray_tracing.py:40-46). -/
structure Cfg (K : Type) where
  thr : K
  ls : K
  backs : Nat
  iters : Nat
  nSteps : Nat
  nSecant : Nat
  training : Bool

/-- One ray during sphere tracing (ray_tracing.py:197-256): current start point, distances from both ends, whether the ends
are unfinished, next and current values of the distance function. -/
structure St (K : Type) where
  p : V3 K
  s : K
  e : K
  us : Bool
  ue : Bool
  ns : K
  ne : K
  cs : K
  ce : K
  deriving DecidableEq

/-- The initial state of a ray that meets the sphere (`hit`) between `near` and `far` (ray_tracing.py:193-235). -/
def init (sdf : V3 K → K) (r : Ray K) (hit : Bool) (near far : K) : St K :=
  { p := if hit then r.at near else 0
    s := if hit then near else 0
    e := if hit then far else 0
    us := hit
    ue := hit
    ns := if hit then sdf (r.at near) else 0
    ne := if hit then sdf (r.at far) else 0
    cs := 0
    ce := 0 }

/-- Current values up to the threshold count as zero (ray_tracing.py:239-247). -/
def zeroed (thr : K) (u : Bool) (n : K) : K :=
  if (if u then n else 0) ≤ thr then 0 else if u then n else 0

/-- The head of the loop (ray_tracing.py:238-255). -/
def update (thr : K) (a : St K) : St K :=
  { a with
    cs := zeroed thr a.us a.ns
    ce := zeroed thr a.ue a.ne
    us := a.us && decide (thr < zeroed thr a.us a.ns)
    ue := a.ue && decide (thr < zeroed thr a.ue a.ne) }

/-- A step from both ends (ray_tracing.py:263-287). -/
def move (sdf : V3 K → K) (r : Ray K) (a : St K) : St K :=
  { a with
    s := a.s + a.cs
    e := a.e - a.ce
    p := r.at (a.s + a.cs)
    ns := if a.us then sdf (r.at (a.s + a.cs)) else 0
    ne := if a.ue then sdf (r.at (a.e - a.ce)) else 0 }

/-- Step back from the near end (ray_tracing.py:296-302, 313-315). -/
def backS (sdf : V3 K → K) (r : Ray K) (ls : K) (i : Nat) (a : St K) : St K :=
  if a.ns < 0 then
    { a with
      s := a.s - (1 - ls) / 2 ^ i * a.cs
      p := r.at (a.s - (1 - ls) / 2 ^ i * a.cs)
      ns := sdf (r.at (a.s - (1 - ls) / 2 ^ i * a.cs)) }
  else a

/-- Step back from the far end (ray_tracing.py:304-310, 316-318). -/
def backE (sdf : V3 K → K) (r : Ray K) (ls : K) (i : Nat) (a : St K) : St K :=
  if a.ne < 0 then
    { a with
      e := a.e + (1 - ls) / 2 ^ i * a.ce
      ne := sdf (r.at (a.e + (1 - ls) / 2 ^ i * a.ce)) }
  else a

def backOne (sdf : V3 K → K) (r : Ray K) (ls : K) (i : Nat) (a : St K) : St K := backE sdf r ls i (backS sdf r ls i a)

/-- `not_projected_start` or `not_projected_end` (ray_tracing.py:289-290). -/
def notProj (a : St K) : Bool := decide (a.ns < 0) || decide (a.ne < 0)

/-- The inner loop of the batch with `n` rounds left (ray_tracing.py:291-323). -/
def backLoop (sdf : V3 K → K) (ls : K) : Nat → Nat → List (Ray K × St K) → List (Ray K × St K)
  | 0, _, l => l
  | n + 1, i, l => if l.any fun x => notProj x.2 then backLoop sdf ls n (i + 1) (l.map fun x => (x.1, backOne sdf x.1 ls i x.2)) else l

/-- The end of the loop (ray_tracing.py:325-328). -/
def cut (a : St K) : St K :=
  { a with us := a.us && decide (a.s < a.e), ue := a.ue && decide (a.s < a.e) }

/-- `sphere_tracing` (ray_tracing.py:237-337) with `n` iterations left. -/
def loop (c : Cfg K) (sdf : V3 K → K) : Nat → List (Ray K × St K) → List (Ray K × St K)
  | 0, l => l.map fun x => (x.1, update c.thr x.2)
  | n + 1, l =>
    if (l.map fun x => (x.1, update c.thr x.2)).any fun x => x.2.us || x.2.ue then
      loop c sdf n ((backLoop sdf c.ls c.backs 0 ((l.map fun x => (x.1, update c.thr x.2)).map fun x => (x.1, move sdf x.1 x.2))).map
        fun x => (x.1, cut x.2))
    else l.map fun x => (x.1, update c.thr x.2)

/-- First index of the smallest of `f 0, …, f n` (`torch.argmin`). -/
def argmin (f : Nat → K) : Nat → Nat
  | 0 => 0
  | n + 1 => if f (n + 1) < f (argmin f n) then n + 1 else argmin f n

/-- `torch.linspace(0, 1, steps=n)[i]`. -/
def lin (n i : Nat) : K := if n ≤ 1 then 0 else (i : K) / ((n : K) - 1)

/-- `pts_intervals` of a ray (ray_tracing.py:369-375). -/
def zAt (lo hi : K) (n i : Nat) : K := lo + lin n i * (hi - lo)

/-- `torch.sign`. -/
def sgn (x : K) : K := if x < 0 then -1 else if 0 < x then 1 else 0

/-- `sampler_pts_ind` (ray_tracing.py:391-395): the first negative value. -/
def signInd (v : Nat → K) (n : Nat) : Nat := argmin (fun i => sgn (v i) * ((n : K) - (i : K))) (n - 1)

/-- The estimate of the secant method (ray_tracing.py:492, 505). -/
def secPred (fl fh zl zh : K) : K := -fl * (zh - zl) / (fh - fl) + zl

/-- `secant` with `n` steps left (ray_tracing.py:478-507). -/
def secant (f : K → K) : Nat → K → K → K → K → K
  | 0, fl, fh, zl, zh => secPred fl fh zl zh
  | n + 1, fl, fh, zl, zh =>
    if 0 < f (secPred fl fh zl zh) then secant f n (f (secPred fl fh zl zh)) fh (secPred fl fh zl zh) zh
    else if f (secPred fl fh zl zh) < 0 then secant f n fl (f (secPred fl fh zl zh)) zl (secPred fl fh zl zh)
    else secant f n fl fh zl zh

/-- What is known of a ray at the end: point, whether it meets the surface, distance. -/
structure Out (K : Type) where
  p : V3 K
  net : Bool
  dist : K
  deriving DecidableEq

/-- The index before `i`, where `-1` is the last one. -/
def prev (n i : Nat) : Nat := if i = 0 then n - 1 else i - 1

/-- `ray_sampler` for one ray between `lo` and `hi` (ray_tracing.py:339-476). -/
def sampler (c : Cfg K) (sdf : V3 K → K) (r : Ray K) (obj : Bool) (lo hi : K) : Out K :=
  let z := zAt lo hi c.nSteps
  let v := fun i => sdf (r.at (z i))
  let ind := signInd v c.nSteps
  let surf := decide (v ind < 0)
  let out := if !(obj && surf) then argmin v (c.nSteps - 1) else ind
  if (if c.training then surf && obj else surf) then
    let zp := secant (fun t => sdf (r.at t)) c.nSecant (v (prev c.nSteps ind)) (v ind) (z (prev c.nSteps ind)) (z ind)
    ⟨r.at zp, surf, zp⟩
  else ⟨r.at (z out), surf, z out⟩

/-- `forward` after sphere tracing and before the part for training (ray_tracing.py:96-116). -/
def sampled (c : Cfg K) (sdf : V3 K → K) (obj : Bool) (r : Ray K) (a : St K) : Out K :=
  if a.us then sampler c sdf r obj a.s a.e else ⟨a.p, decide (a.s < a.e), a.s⟩

/-- `minimal_sdf_points` for one ray with random numbers `u` (ray_tracing.py:509-558): the index of the smallest value. -/
def minimal (c : Cfg K) (sdf : V3 K → K) (r : Ray K) (u : Nat → K) (lo hi : K) : K :=
  let z := fun i => u i * (hi - lo) + lo
  z (argmin (fun i => sdf (r.at (z i))) (c.nSteps - 1))

/-- The end of `forward` for one ray (ray_tracing.py:118-158); `a` is its state after sphere tracing. -/
def finish (c : Cfg K) (sdf : V3 K → K) (u : Nat → K) (obj hit : Bool) (near far : K) (r : Ray K) (a : St K) : Out K :=
  let o := sampled c sdf obj r a
  if !c.training then o else
    let inM := !o.net && obj && !a.us
    let outM := !obj && !a.us
    if (inM || outM) && !hit then ⟨r.at (-V3.dot r.d r.o), o.net, -V3.dot r.d r.o⟩
    else if (inM || outM) && hit then
      let zm := minimal c sdf r u (if o.net && outM then o.dist else near) far
      ⟨r.at zm, o.net, zm⟩
    else o

/-- A ray as `forward` sees it: the ray, the object mask, the intersection with the sphere. -/
structure Job (K : Type) where
  r : Ray K
  obj : Bool
  hit : Bool
  near : K
  far : K

/-- `RayTracing.forward` (ray_tracing.py:48-158) for the rays of a batch whose intersections with the sphere are known. -/
def forward (c : Cfg K) (sdf : V3 K → K) (u : Nat → K) (jobs : List (Job K)) : List (Out K) :=
  List.zipWith (fun j x => finish c sdf u j.obj j.hit (if j.hit then j.near else 0) (if j.hit then j.far else 0) j.r x.2) jobs
    (loop c sdf c.iters (jobs.map fun j => (j.r, init sdf j.r j.hit j.near j.far)))

/-- `under_sqrt` of `_get_sphere_intersection` (ray_tracing.py:573-575). -/
def under (r : Ray K) (rad : K) : K := V3.dot r.d r.o ^ 2 - (V3.normSq r.o - rad ^ 2)

/-- `_get_sphere_intersection` (ray_tracing.py:562-592). -/
noncomputable def sphere (r : Ray ℝ) (rad : ℝ) : Bool × ℝ × ℝ :=
  if 0 < under r rad then
    (true, max (-Real.sqrt (under r rad) - V3.dot r.d r.o) 0, max (Real.sqrt (under r rad) - V3.dot r.d r.o) 0)
  else (false, 0, 0)

/-- A ray of the batch with its sphere. -/
noncomputable def job (rad : ℝ) (x : Ray ℝ × Bool) : Job ℝ :=
  ⟨x.1, x.2, (sphere x.1 rad).1, (sphere x.1 rad).2.1, (sphere x.1 rad).2.2⟩

/-- `RayTracing.forward`. -/
noncomputable def rayTracing (c : Cfg ℝ) (rad : ℝ) (sdf : V3 ℝ → ℝ) (u : Nat → ℝ) (rays : List (Ray ℝ × Bool)) : List (Out ℝ) :=
  forward c sdf u (rays.map (job rad))

/-! ### The renderer -/

/-- `surface_mask` (sdf_renderer.py:138, 182). -/
def surfaceMask (train : Bool) (obj : Bool) (o : Out K) : Bool := if train then o.net && obj else o.net

/-- `masks` of `SignedDistanceFunctionRenderer` (sdf_renderer.py:186, 202-204, 221-224); `soft` is the logistic function
of `-soft_mask_alpha` times the value. -/
def masks (soft : K → K) (sdf : V3 K → K) (train : Bool) (l : List (Ray K × Bool × Out K)) : List K :=
  if l.all fun x => !surfaceMask train x.2.1 x.2.2 then l.map fun _ => 1
  else l.map fun x => if surfaceMask train x.2.1 x.2.2 then 1 else soft (sdf (x.1.at x.2.2.dist))

/-- `points` of the renderer in evaluation (sdf_renderer.py:128, 183, 227-228). -/
def points (l : List (Ray K × Bool × Out K)) : List (V3 K) :=
  l.map fun x => if x.2.2.net then x.1.at x.2.2.dist else x.1.o

/-- `_sample_network` (sdf_renderer.py:242-264): the distance as a function of the parameters, through the value `out`. -/
def sampleDist (eps dist sdfVal dot out : K) : K :=
  dist - (out - sdfVal) / (max |dot| eps * (if 0 ≤ dot then 1 else -1))

end P3D.SphereTrace
