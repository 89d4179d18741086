/-
`renderer/implicit/raysampling.py`: `MultinomialRaysampler`, `NDCMultinomialRaysampler`,
`MonteCarloRaysampler`, `_safe_multinomial`, `_xy_to_ray_bundle`, `_jiggle_within_stratas`,
`_sample_cameras_and_masks`, `_pack_ray_bundle`; and `CamerasBase.__getitem__`.

Spatial dimensions are flattened in row-major order, as `view` and `reshape` do; a mask is given as one row of
`H * W` weights per camera.  Random numbers are parameters.  `torch.multinomial` is a parameter that satisfies
`MultSpec`.
-/
import Verif.CameraRays
import Verif.Volumes
import Verif.RasterPoints
import Verif.PackedPaddedProps
import Verif.StructUtilsProps

set_option linter.unusedSectionVars false
set_option linter.unusedSimpArgs false

namespace P3D.Rays
open T3d Camera

inductive Err
  | value | index | runtime | assertion | type
  /-- raised by a camera method -/
  | camera (e : T3d.Err)
  deriving DecidableEq, Repr

/-! ## Cameras -/

section index
variable {K : Type*} [Field K]

/-- `val[index]` for a list of indices (cameras.py:461): every index is in range when this is reached with one
row per camera. -/
def rows {α : Type*} (ids : List Nat) (l : List α) : List α := ids.filterMap (l[·]?)

/-- The class parameters of the selected cameras. -/
def indexParams (ids : List Nat) : Params K → Params K
  | .fovPersp l => .fovPersp (rows ids l)
  | .fovOrtho l => .fovOrtho (rows ids l)
  | .persp b l => .persp b (rows ids l)
  | .ortho b l => .ortho b (rows ids l)

/-- `CamerasBase.__getitem__`, cameras.py:395-469, for a list or LongTensor of nonnegative indices: `max(index)`
of an empty sequence is a ValueError, indices that are too large an IndexError. -/
def indexCam (ids : List Nat) (c : Cam K) : Except Err (Cam K) :=
  if ids = [] then .error .value
  else if c.n ≤ ids.foldl max 0 then .error .index
  else .ok { n := ids.length, R := rows ids c.R, T := rows ids c.T, kmat := c.kmat.map (rows ids),
             params := indexParams ids c.params, imageSize := c.imageSize.map (rows ids) }

end index

/-! ## Rays -/

noncomputable section

/-- One ray of a `RayBundle`. -/
structure Ray where
  origin : V3 ℝ
  dir : V3 ℝ
  lengths : List ℝ
  xy : ℝ × ℝ

/-- `F.normalize(x, dim=-1)` with its default `eps=1e-12`. -/
def normalize (v : V3 ℝ) : V3 ℝ := (max (Rot.norm v) (1 / 10 ^ 12))⁻¹ • v

/-- `torch.linspace(min_depth, max_depth, n_pts_per_ray)`, lines 642-650. -/
def depths (lo hi : ℝ) (n : Nat) : List ℝ := (List.range n).map (Vol.linspace lo hi n)

/-- `_jiggle_within_stratas`, lines 714-720, for one row; `u` is the row of `torch.rand_like`. -/
def jiggle (z u : List ℝ) : List ℝ :=
  let mids := List.zipWith (fun a b => 0.5 * (a + b)) z.tail z.dropLast
  let upper := mids ++ z.drop (z.length - 1)
  let lower := z.take 1 ++ mids
  List.zipWith (fun (p : ℝ × ℝ) r => p.1 + (p.2 - p.1) * r) (lower.zip upper) u

/-- Lines 640-654: depths along one ray. -/
def rayLengths (lo hi : ℝ) (n : Nat) (strat : Bool) (u : List ℝ) : List ℝ :=
  if n = 0 then [] else if strat then jiggle (depths lo hi n) u else depths lo hi n

/-- Options of a sampler that concern the points on the rays. -/
structure Opts where
  lo : ℝ
  hi : ℝ
  nPts : Nat
  unit : Bool
  strat : Bool

/-- `to_unproject`, lines 657-671, for one camera. -/
def toUnproject (l : List (ℝ × ℝ)) : List (V3 ℝ) :=
  (l.map fun p => ⟨p.1, p.2, 1⟩) ++ l.map fun p => ⟨p.1, p.2, 2⟩

/-- Lines 677-697 for one camera: the unprojected points are split into two planes. -/
def mkRays (o : Opts) (u : Nat → List ℝ) (l : List (ℝ × ℝ)) (w : List (V3 ℝ)) : List Ray :=
  (List.range l.length).map fun j =>
    let p1 := (w.take l.length).getD j 0
    let p2 := (w.drop l.length).getD j 0
    let d := p2 - p1
    { origin := p1 - d, dir := if o.unit then normalize d else d,
      lengths := rayLengths o.lo o.hi o.nPts o.strat (u j), xy := l.getD j (0, 0) }

/-- `_xy_to_ray_bundle`, lines 605-697. -/
def xyToRays (o : Opts) (u : Nat → Nat → List ℝ) (c : Cam ℝ) (xy : List (List (ℝ × ℝ))) :
    Except Err (List (List Ray)) :=
  match (unproject noKw true false true (.batch (xy.map toUnproject)) c).2 with
  | .error e => .error (.camera e)
  | .ok p => .ok (xy.mapIdx fun i l => mkRays o (u i) l (p.toBatch.getD i []))

/-! ## Choosing pixels -/

/-- `torch.multinomial(input, num_samples, replacement)` on a `(rows, cols)` tensor. -/
abbrev Mult := (cols : Nat) → (rows : List (List ℝ)) → (n : Nat) → (repl : Bool) → Except Err (List (List Nat))

/-- Number of positive weights: `(input > 0.0).sum(dim=-1)`. -/
def positives (r : List ℝ) : Nat := r.countP fun x => decide (0 < x)

/-- `res[mask] = vals`. -/
def assign {α : Type*} : List α → List Bool → List α → List α
  | _ :: rs, true :: ms, v :: vs => v :: assign rs ms vs
  | r :: rs, false :: ms, vs => r :: assign rs ms vs
  | rs, _, _ => rs

/-- `input[mask]`. -/
def select {α : Type*} (l : List α) (f : α → Bool) : List α := l.filter f

/-- `_safe_multinomial`, lines 563-603; the calls of `torch.multinomial` are numbered. -/
def safeMultinomial (m : Nat → Mult) (cols : Nat) (rs : List (List ℝ)) (n : Nat) : Except Err (List (List Nat)) :=
  match m 0 cols rs n false with
  | .error _ => do
    let res ← m 1 cols rs n true
    let ok := fun r => decide (n ≤ positives r)
    let r2 ← m 2 cols (select rs ok) n false
    .ok (assign res (rs.map ok) r2)
  | .ok res =>
    let repl := fun r => decide (positives r < n)
    if rs.any repl then do
      let r2 ← m 3 cols (select rs repl) n true
      .ok (assign res (rs.map repl) r2)
    else .ok res

/-- The constructor arguments of `MultinomialRaysampler`, lines 71-126. -/
structure Sampler where
  minX : ℝ
  maxX : ℝ
  minY : ℝ
  maxY : ℝ
  W : Nat
  H : Nat
  opts : Opts
  nPer : Option Nat
  nTotal : Option Nat

/-- `_xy_grid`, lines 120-126, flattened. -/
def grid (s : Sampler) : List (ℝ × ℝ) :=
  (List.range s.H).flatMap fun y => (List.range s.W).map fun x =>
    (Vol.linspace s.minX s.maxX s.W x, Vol.linspace s.minY s.maxY s.H y)

/-- `NDCMultinomialRaysampler.__init__`, lines 312-338 (`image_width = 0` or `image_height = 0` divides by
zero and is not modelled). -/
def ndcSampler (W H : Nat) (opts : Opts) (nPer nTotal : Option Nat) : Sampler :=
  let rx : ℝ := if H ≤ W then (W : ℝ) / H else 1
  let ry : ℝ := if H ≤ W then 1 else (H : ℝ) / W
  { minX := rx - rx / W, maxX := -rx + rx / W, minY := ry - ry / H, maxY := -ry + ry / H, W, H, opts, nPer, nTotal }

/-- Python `a or b` for optional integers. -/
def pyOr (a b : Option Nat) : Option Nat :=
  match a with
  | some (k + 1) => some (k + 1)
  | _ => b

/-- The parameters of `forward`, lines 130-139; `mask` has one row per camera. -/
structure Args where
  mask : Option (List (List ℝ)) := none
  lo : Option ℝ := none
  hi : Option ℝ := none
  nPer : Option Nat := none
  nPts : Option Nat := none
  strat : Option Bool := none
  nTotal : Option Nat := none

/-- Source of randomness: calls of `torch.multinomial`, numbers for stratified sampling, `torch.randint`. -/
structure Rnd where
  mult : Nat → Mult
  u : Nat → Nat → List ℝ
  ids : List Nat

/-- Lines 234-247: options of the call. -/
def callOpts (s : Sampler) (a : Args) : Opts :=
  { lo := a.lo.getD s.opts.lo, hi := a.hi.getD s.opts.hi, nPts := a.nPts.getD s.opts.nPts, unit := s.opts.unit,
    strat := a.strat.getD s.opts.strat }

/-- `mask.sum(dim=(1, 2)).min().int().item()`, line 210; the minimum of an empty tensor raises. -/
def minMask (mask : List (List ℝ)) : Except Err Nat :=
  match mask with
  | [] => .error .runtime
  | r :: rs => .ok ⌊(rs.map List.sum).foldl min r.sum⌋₊

/-- Lines 204-213: the number of rays per image. -/
def nRays (mask : Option (List (List ℝ))) (nPer : Option Nat) : Except Err (Option Nat) :=
  match mask, nPer with
  | some m, none => (minMask m).map some
  | _, n => .ok n

/-- Lines 213-232: the image points of each camera. -/
def imagePoints (s : Sampler) (m : Nat → Mult) (B : Nat) (mask : Option (List (List ℝ))) (n : Option Nat) :
    Except Err (List (List (ℝ × ℝ))) :=
  match n with
  | none => .ok (List.replicate B (grid s))
  | some n => do
    let w ← match mask with
      | some rs => if rs.length = B ∧ rs.all fun r => r.length = s.H * s.W then .ok rs else .error .assertion
      | none => .ok (List.replicate B (List.replicate (s.H * s.W) 1))
    let idx ← safeMultinomial m (s.H * s.W) w n
    .ok (idx.map fun l => l.map fun k => (grid s).getD k (0, 0))

/-- Lines 199-256 without the sampling of cameras. -/
def sampleImages (s : Sampler) (a : Args) (r : Rnd) (c : Cam ℝ) (mask : Option (List (List ℝ))) (nPer : Option Nat) :
    Except Err (List (List Ray)) := do
  let n ← nRays mask nPer
  let xy ← imagePoints s r.mult c.R.length mask n
  xyToRays (callOpts s a) r.u c xy

/-- `torch.unique(ids, return_counts=True)` of numbers below `n`. -/
def uniqueIds (n : Nat) (ids : List Nat) : List Nat := (List.range n).filter fun i => ids.contains i
def counts (n : Nat) (ids : List Nat) : List Nat := (uniqueIds n ids).map ids.count

/-- `HeterogeneousRayBundle`. -/
structure Hetero where
  rays : List Ray
  cameraIds : List Nat
  cameraCounts : List Nat

/-- `_pack_ray_bundle`, lines 766-802.  The four tensors are packed with the same indices; `none` would be an
access out of bounds of the kernel. -/
def pack (rays : List (List Ray)) (ids cnt : List Nat) : Option Hetero :=
  (PackedPadded.paddedToPacked ⟨0, 0, [], (0, 0)⟩ rays.flatten (0 :: StructUtils.cumsumFrom 0 cnt.dropLast)
    ((rays.map List.length).getD 0 0) cnt.sum).map fun p => ⟨p, ids, cnt⟩

/-- `mask[unique_ids] if mask is not None else None`, line 758. -/
def selectMask (ids : List Nat) : Option (List (List ℝ)) → Except Err (Option (List (List ℝ)))
  | none => .ok none
  | some m => if m.length ≤ ids.foldl max 0 then .error .index else .ok (some (rows ids m))

inductive Out
  | bundle (rays : List (List Ray))
  | hetero (h : Option Hetero)

/-- `MultinomialRaysampler.forward`, lines 130-265.  `torch.randint(0, len(cameras))` raises without cameras. -/
def forward (s : Sampler) (a : Args) (r : Rnd) (c : Cam ℝ) : Except Err Out :=
  let total := pyOr a.nTotal s.nTotal
  let per := pyOr a.nPer s.nPer
  if total.isSome ∧ per.isSome then .error .value
  else match total with
    | some (_ + 1) =>
      if c.n = 0 then .error .runtime
      else do
        let ids := uniqueIds c.n r.ids
        let cnt := counts c.n r.ids
        let c' ← indexCam ids c
        let mask ← selectMask ids a.mask
        let rays ← sampleImages s a r c' mask (some (cnt.foldl max 0))
        .ok (.hetero (pack rays ids cnt))
    | _ => do
      let rays ← sampleImages s a r c a.mask per
      .ok (.bundle rays)

/-- `MonteCarloRaysampler.forward`, lines 427-492; `v i j` are the two random numbers of ray `j`, camera `i`. -/
def monteCarlo (s : Sampler) (strat : Option Bool) (v : Nat → Nat → ℝ × ℝ) (r : Rnd) (c : Cam ℝ) : Except Err Out :=
  let o := { s.opts with strat := strat.getD s.opts.strat }
  let xy := fun (B n : Nat) => (List.range B).map fun i => (List.range n).map fun j =>
    ((v i j).1 * (s.maxX - s.minX) + s.minX, (v i j).2 * (s.maxY - s.minY) + s.minY)
  match s.nTotal, s.nPer with
  | some (_ + 1), none =>
    if c.n = 0 then .error .runtime
    else do
      let ids := uniqueIds c.n r.ids
      let cnt := counts c.n r.ids
      let c' ← indexCam ids c
      let rays ← xyToRays o r.u c' (xy c'.R.length (cnt.foldl max 0))
      .ok (.hetero (pack rays ids cnt))
  | some 0, none => .error .type
  | none, some n => do
    let rays ← xyToRays o r.u c (xy c.R.length n)
    .ok (.bundle rays)
  | _, _ => .error .value

end

/-! ## Specification -/

/-- What `torch.multinomial` guarantees: it raises for no samples and when more samples than columns are
requested without replacement (checked before anything else); with replacement it draws positive weights if every
row has one and none is negative; without replacement it draws distinct positive weights for every row with enough
of them, and raises or returns anything for a row without. -/
structure MultSpec (m : Mult) : Prop where
  zero : ∀ cols rs b, ∃ e, m cols rs 0 b = .error e
  many : ∀ cols rs n, cols < n → ∃ e, m cols rs n false = .error e
  repl : ∀ cols rs n, 0 < n → (∀ r ∈ rs, r.length = cols ∧ (∀ x ∈ r, 0 ≤ x) ∧ 0 < positives r) →
    ∃ res, m cols rs n true = .ok res ∧ res.length = rs.length ∧ ∀ i (h : i < rs.length) (h' : i < res.length),
      res[i].length = n ∧ ∀ k ∈ res[i], 0 < rs[i].getD k 0
  enough : ∀ cols rs n, 0 < n → n ≤ cols → (∀ r ∈ rs, r.length = cols ∧ (∀ x ∈ r, 0 ≤ x) ∧ n ≤ positives r) →
    ∃ res, m cols rs n false = .ok res
  noRepl : ∀ cols rs n res, m cols rs n false = .ok res → (∀ r ∈ rs, r.length = cols ∧ ∀ x ∈ r, 0 ≤ x) →
    res.length = rs.length ∧ ∀ i (h : i < rs.length) (h' : i < res.length), res[i].length = n ∧
      (n ≤ positives rs[i] → res[i].Nodup ∧ ∀ k ∈ res[i], 0 < rs[i].getD k 0)

/-- The line `o + z d` is what camera `i` sees at `xy`, and `z` is the depth; the line of a perspective camera with
the calibration matrix of its class starts in the camera centre. -/
def Sees (c : Cam ℝ) (i : Nat) (o d : V3 ℝ) (xy : ℝ × ℝ) : Prop :=
  (c.params.isPersp → c.kmat = none → viewPoint c i o = 0) ∧
  ∀ z : ℝ, (viewPoint c i (o + z • d)).z = z ∧ ((c.params.isPersp → z ≠ 0) →
    (ndcPoint c i (o + z • d)).x = xy.1 ∧ (ndcPoint c i (o + z • d)).y = xy.2)

/-- `r` is a ray of camera `i` for its image point. -/
def OnRay (c : Cam ℝ) (i : Nat) (unit : Bool) (r : Ray) : Prop :=
  ∃ d, Sees c i r.origin d r.xy ∧ r.dir = if unit then normalize d else d

/-! ## Proofs -/

/-! ### Rays -/

theorem pair_cancel (o d : V3 ℝ) : (o + (2 : ℝ) • d) - (o + (1 : ℝ) • d) = d := by
  ext <;> simp <;> ring

theorem origin_cancel (o d : V3 ℝ) : (o + (1 : ℝ) • d) - d = o := by
  ext <;> simp

/-- **C63 (rays).** For every batch of valid cameras, every ray produced for the image points `xy` runs through the
points that its camera sees at that image point, with the depth as parameter; the number and order of rays are
those of `xy`. -/
theorem rays_spec (o : Opts) (u : Nat → Nat → List ℝ) {c : Cam ℝ} (hv : Valid noKw c) (hn : NdcOk c)
    {xy : List (List (ℝ × ℝ))} (hxy : xy.length = c.n) :
    ∃ rays, xyToRays o u c xy = .ok rays ∧ rays.map (List.map Ray.xy) = xy ∧
      ∀ i (h : i < rays.length), ∀ j (hj : j < rays[i].length), OnRay c i o.unit rays[i][j] ∧
        rays[i][j].lengths = rayLengths o.lo o.hi o.nPts o.strat (u i j) := by
  choose O D hc hl using fun (i : Nat) (p : ℝ × ℝ) (hi : i < c.n) => world_line hv hn hi p.1 p.2
  classical
  let O' : Nat → ℝ × ℝ → V3 ℝ := fun i p => if h : i < c.n then O i p h else 0
  let D' : Nat → ℝ × ℝ → V3 ℝ := fun i p => if h : i < c.n then D i p h else 0
  have hO : ∀ i p (h : i < c.n), O' i p = O i p h := fun i p h => dif_pos h
  have hD : ∀ i p (h : i < c.n), D' i p = D i p h := fun i p h => dif_pos h
  have hz1 : (1 : ℝ) ≠ 0 := one_ne_zero
  have hz2 : (2 : ℝ) ≠ 0 := two_ne_zero
  set b : List (List (V3 ℝ)) := xy.mapIdx fun i l =>
    (l.map fun p => O' i p + (1 : ℝ) • D' i p) ++ l.map fun p => O' i p + (2 : ℝ) • D' i p with hbdef
  have hb : b.length = c.n := by simp [hbdef, hxy]
  have ha : Away c b := by
    intro _ i hi p hp
    have hic : i < c.n := hb ▸ hi
    simp only [hbdef, List.getElem_mapIdx, List.mem_append, List.mem_map] at hp
    rcases hp with ⟨q, _, rfl⟩ | ⟨q, _, rfl⟩
    · rw [hO i q hic, hD i q hic, (hl i q hic 1).1]; exact hz1
    · rw [hO i q hic, hD i q hic, (hl i q hic 2).1]; exact hz2
  have hin : (b.mapIdx fun i l => l.map fun p =>
      (⟨(ndcPoint c i p).x, (ndcPoint c i p).y, (viewPoint c i p).z⟩ : V3 ℝ)) = xy.map toUnproject := by
    apply List.ext_getElem
    · simp [hbdef]
    · intro i h1 h2
      have hic : i < c.n := by simpa [hxy] using h2
      simp only [hbdef, List.getElem_mapIdx, List.getElem_map, List.map_append, List.map_map, toUnproject]
      congr 1
      · apply List.map_congr_left
        intro q _
        simp only [Function.comp, hO i q hic, hD i q hic]
        have e := hl i q hic 1
        rw [e.1, (e.2 fun _ => hz1).1, (e.2 fun _ => hz1).2]
      · apply List.map_congr_left
        intro q _
        simp only [Function.comp, hO i q hic, hD i q hic]
        have e := hl i q hic 2
        rw [e.1, (e.2 fun _ => hz2).1, (e.2 fun _ => hz2).2]
  have hun := unproject_ndc hv hn hb ha
  rw [hin] at hun
  have hres : xyToRays o u c xy = .ok (xy.mapIdx fun i l => mkRays o (u i) l (b.getD i [])) := by
    unfold xyToRays
    rw [hun]
    rfl
  have hget : ∀ i (hi : i < xy.length) j (hj : j < xy[i].length), ∀ w, w = b.getD i [] →
      (w.take xy[i].length).getD j 0 = O' i xy[i][j] + (1 : ℝ) • D' i xy[i][j] ∧
      (w.drop xy[i].length).getD j 0 = O' i xy[i][j] + (2 : ℝ) • D' i xy[i][j] := by
    intro i hi j hj w hw
    have : w = (xy[i].map fun p => O' i p + (1 : ℝ) • D' i p) ++ xy[i].map fun p => O' i p + (2 : ℝ) • D' i p := by
      rw [hw, List.getD_eq_getElem _ _ (by omega)]
      simp only [hbdef, List.getElem_mapIdx]
    rw [this, List.take_left' (by simp), List.drop_left' (by simp), List.getD_eq_getElem _ _ (by simpa using hj),
      List.getD_eq_getElem _ _ (by simpa using hj)]
    simp
  refine ⟨_, hres, ?_, ?_⟩
  · apply List.ext_getElem
    · simp
    · intro i h1 h2
      simp only [List.getElem_map, List.getElem_mapIdx, mkRays, List.map_map]
      apply List.ext_getElem
      · simp
      · intro j h3 h4
        simp only [List.getElem_map, List.getElem_range, Function.comp]
        rw [List.getD_eq_getElem _ _ h4]
  · intro i hi j hj
    have hix : i < xy.length := by simpa using hi
    have hic : i < c.n := hxy ▸ hix
    have hjx : j < xy[i].length := by simpa [mkRays] using hj
    have hg := hget i hix j hjx _ rfl
    simp only [List.getElem_mapIdx, mkRays, List.getElem_map, List.getElem_range]
    refine ⟨⟨D' i xy[i][j], ?_, ?_⟩, trivial⟩
    · simp only [hg.1, hg.2, pair_cancel, origin_cancel]
      rw [List.getD_eq_getElem _ _ hjx, hO i _ hic, hD i _ hic]
      refine ⟨fun h1 h2 => ?_, fun z => hl i _ hic z⟩
      have hz := calib_centre h2 h1 (i := i) (by rw [hv.plen]; exact hic)
      exact hc i _ hic h1 hz.1 hz.2
    · simp only [hg.1, hg.2, pair_cancel]

/-- **C63 (rays, with the methods of the cameras).** With `unit_directions=False` the points at depth `z` on all
rays have view depth `z` and are projected by `transform_points_ndc` to the image points of their rays. -/
theorem rays_project (o : Opts) (hu : o.unit = false) (u : Nat → Nat → List ℝ) {c : Cam ℝ} (hv : Valid noKw c)
    (hn : NdcOk c) {xy : List (List (ℝ × ℝ))} (hxy : xy.length = c.n) :
    ∃ rays, xyToRays o u c xy = .ok rays ∧ ∀ z : ℝ, (c.params.isPersp → z ≠ 0) → ∃ w view q,
      (getWorldToView noKw c).2 = .ok w ∧
      transformPoints w none (.batch (rays.map fun l => l.map fun r => r.origin + z • r.dir)) = .ok (.batch view) ∧
      (transformPtsNdc noKw none (.batch (rays.map fun l => l.map fun r => r.origin + z • r.dir)) c).2 = .ok (.batch q) ∧
      (∀ l ∈ view, ∀ v ∈ l, v.z = z) ∧ q.map (List.map fun p => (p.x, p.y)) = xy := by
  obtain ⟨rays, h1, h2, h3⟩ := rays_spec o u hv hn hxy
  refine ⟨rays, h1, fun z hz => ?_⟩
  have hlen : rays.length = c.n := by rw [← hxy, ← h2]; simp
  set b := rays.map fun l => l.map fun r => r.origin + z • r.dir with hbd
  have hb : b.length = c.n := by simp [hbd, hlen]
  have hray : ∀ i (hi : i < rays.length) j (hj : j < rays[i].length),
      Sees c i rays[i][j].origin rays[i][j].dir rays[i][j].xy := by
    intro i hi j hj
    obtain ⟨⟨d, hd, e⟩, -⟩ := h3 i hi j hj
    rw [hu] at e
    rw [e]
    exact hd
  have ha : Away c b := by
    intro hp i hi p hpm
    have hir : i < rays.length := by omega
    simp only [hbd, List.getElem_map, List.mem_map] at hpm
    obtain ⟨r, hr, rfl⟩ := hpm
    obtain ⟨j, hj, rfl⟩ := List.mem_iff_getElem.mp hr
    rw [((hray i hir j hj).2 z).1]
    exact hz hp
  obtain ⟨w, e1, e2⟩ := view_pointwise hv hb
  refine ⟨w, _, _, e1, e2, ndc_pointwise hv hn hb ha, ?_, ?_⟩
  · intro l hl v hvl
    obtain ⟨i, hi, rfl⟩ := List.mem_iff_getElem.mp hl
    have hir : i < rays.length := by simpa [hbd] using hi
    simp only [List.getElem_mapIdx, hbd, List.getElem_map, List.map_map, List.mem_map, Function.comp] at hvl
    obtain ⟨r, hr, rfl⟩ := hvl
    obtain ⟨j, hj, rfl⟩ := List.mem_iff_getElem.mp hr
    exact ((hray i hir j hj).2 z).1
  · rw [← h2]
    apply List.ext_getElem
    · simp [hbd]
    · intro i g1 g2
      have hir : i < rays.length := by simpa using g2
      simp only [List.getElem_map, List.getElem_mapIdx, hbd, List.map_map]
      apply List.ext_getElem
      · simp
      · intro j g3 g4
        have hj : j < rays[i].length := by simpa using g4
        simp only [List.getElem_map, Function.comp]
        have := ((hray i hir j hj).2 z).2 hz
        rw [this.1, this.2]

/-! ### Unit directions -/

theorem norm_nonneg' (v : V3 ℝ) : 0 ≤ Rot.norm v := Real.sqrt_nonneg _

theorem norm_smul' (t : ℝ) (v : V3 ℝ) : Rot.norm (t • v) = |t| * Rot.norm v := by
  unfold Rot.norm
  rw [V3.normSq_smul, Real.sqrt_mul (sq_nonneg t), Real.sqrt_sq_eq_abs]

theorem vecMul_normSq {R : M3 ℝ} (h : M3.IsRot R) (v : V3 ℝ) : V3.normSq (M3.vecMul v R) = V3.normSq v := by
  have := h.transpose.dot v v
  have e : M3.mulVec R.transpose v = M3.vecMul v R := by ext <;> simp [M3.mulVec, M3.vecMul, M3.transpose] <;> ring
  rw [e] at this
  exact this

theorem view_move (c : Cam ℝ) (i : Nat) (o d : V3 ℝ) (z : ℝ) :
    viewPoint c i (o + z • d) = viewPoint c i o + z • M3.vecMul d (c.R.getD i 1) := by
  unfold viewPoint
  rw [vecMul_line]
  ext <;> simp <;> ring

theorem sees_dir {c : Cam ℝ} {i : Nat} {o d : V3 ℝ} {xy : ℝ × ℝ} (h : Sees c i o d xy) :
    (viewPoint c i o).z = 0 ∧ (M3.vecMul d (c.R.getD i 1)).z = 1 := by
  have h0 := (h.2 0).1
  have h1 := (h.2 1).1
  rw [view_move] at h0 h1
  simp only [V3.add_z, V3.smul_z] at h0 h1
  constructor <;> linarith

/-- **C63 (unit directions).** With `unit_directions=True` and a rotation `R` the directions have norm one, the
point at `t` is still seen at the image point of the ray and lies at distance `|t|` from the origin of the ray; its
depth is `t` times the cosine of the angle to the optical axis, so the lengths are depths only for rays parallel to
the axis. -/
theorem unit_spec {c : Cam ℝ} {i : Nat} {r : Ray} (h : OnRay c i true r) (hR : M3.IsRot (c.R.getD i 1)) :
    Rot.norm r.dir = 1 ∧ ∃ cosine : ℝ, 0 < cosine ∧ cosine ≤ 1 ∧ cosine = (M3.vecMul r.dir (c.R.getD i 1)).z ∧
      (cosine = 1 ↔ M3.vecMul r.dir (c.R.getD i 1) = ⟨0, 0, 1⟩) ∧
      ∀ t : ℝ, Rot.norm (r.origin + t • r.dir - r.origin) = |t| ∧ (viewPoint c i (r.origin + t • r.dir)).z = t * cosine ∧
        ((c.params.isPersp → t ≠ 0) → (ndcPoint c i (r.origin + t • r.dir)).x = r.xy.1
          ∧ (ndcPoint c i (r.origin + t • r.dir)).y = r.xy.2) := by
  obtain ⟨d, hs, hd⟩ := h
  simp only [if_true] at hd
  have hz := sees_dir hs
  have hn1 : 1 ≤ V3.normSq d := by
    rw [← vecMul_normSq hR d]
    have : V3.normSq (M3.vecMul d (c.R.getD i 1)) = (M3.vecMul d (c.R.getD i 1)).x ^ 2
        + (M3.vecMul d (c.R.getD i 1)).y ^ 2 + (M3.vecMul d (c.R.getD i 1)).z ^ 2 := by
      simp only [V3.normSq, V3.dot]; ring
    rw [this, hz.2]
    nlinarith [sq_nonneg (M3.vecMul d (c.R.getD i 1)).x, sq_nonneg (M3.vecMul d (c.R.getD i 1)).y]
  have hnd : 1 ≤ Rot.norm d := by
    unfold Rot.norm
    rw [show (1 : ℝ) = Real.sqrt 1 by simp]
    exact Real.sqrt_le_sqrt hn1
  have hmax : max (Rot.norm d) (1 / 10 ^ 12) = Rot.norm d := max_eq_left (le_trans (by norm_num) hnd)
  have hdir : r.dir = (Rot.norm d)⁻¹ • d := by rw [hd]; unfold normalize; rw [hmax]
  set n := Rot.norm d with hnn
  have hn0 : 0 < n := by linarith
  have hnorm : Rot.norm r.dir = 1 := by
    rw [hdir, norm_smul', abs_of_pos (inv_pos.mpr hn0), inv_mul_cancel₀ hn0.ne']
  have hcos : (M3.vecMul r.dir (c.R.getD i 1)).z = n⁻¹ := by
    have : M3.vecMul r.dir (c.R.getD i 1) = n⁻¹ • M3.vecMul d (c.R.getD i 1) := by
      rw [hdir]; ext <;> simp [M3.vecMul] <;> ring
    rw [this, V3.smul_z, hz.2, mul_one]
  refine ⟨hnorm, n⁻¹, inv_pos.mpr hn0, inv_le_one_of_one_le₀ hnd, hcos.symm, ?_, ?_⟩
  · constructor
    · intro e
      have h1 : V3.normSq (M3.vecMul r.dir (c.R.getD i 1)) = 1 := by
        rw [vecMul_normSq hR]
        have := hnorm
        unfold Rot.norm at this
        exact Real.sqrt_eq_one.mp this
      rw [e] at hcos
      generalize M3.vecMul r.dir (c.R.getD i 1) = v at h1 hcos
      simp only [V3.normSq, V3.dot, hcos] at h1
      have hx : v.x = 0 := by nlinarith [sq_nonneg v.x, sq_nonneg v.y]
      have hy : v.y = 0 := by nlinarith [sq_nonneg v.x, sq_nonneg v.y]
      ext <;> simp [hx, hy, hcos]
    · intro e
      rw [← hcos, e]
  · intro t
    have hpt : r.origin + t • r.dir = r.origin + (t * n⁻¹) • d := by
      rw [hdir]; ext <;> simp <;> ring
    refine ⟨?_, ?_, ?_⟩
    · rw [show r.origin + t • r.dir - r.origin = t • r.dir by ext <;> simp, norm_smul', hnorm, mul_one]
    · rw [hpt, (hs.2 _).1]
    · intro ht
      rw [hpt]
      exact (hs.2 _).2 fun hp => mul_ne_zero (ht hp) (inv_pos.mpr hn0).ne'

/-! ### Depths -/

theorem depths_length (lo hi : ℝ) (n : Nat) : (depths lo hi n).length = n := by simp [depths]

theorem depths_get (lo hi : ℝ) {n k : Nat} (hk : k < n) (h2 : 2 ≤ n) :
    (depths lo hi n)[k]'(by simpa [depths] using hk) = lo + (hi - lo) * (k / ((n : ℝ) - 1)) := by
  simp only [depths, List.getElem_map, List.getElem_range, Vol.linspace]
  rw [if_neg (by omega)]
  ring

/-- **C63 (depths).** Without stratified sampling the lengths are uniformly spaced, the first is `min_depth` and
(with at least two points) the last is `max_depth`. -/
theorem depths_spec (lo hi : ℝ) (n : Nat) (u : List ℝ) :
    (rayLengths lo hi n false u).length = n ∧ (rayLengths lo hi n false u)[0]? = (if n = 0 then none else some lo) ∧
    (2 ≤ n → (rayLengths lo hi n false u).getLast? = some hi) ∧
    ∀ k (h : k + 1 < (rayLengths lo hi n false u).length),
      (rayLengths lo hi n false u)[k + 1] - (rayLengths lo hi n false u)[k] = (hi - lo) / ((n : ℝ) - 1) := by
  by_cases hn : n = 0
  · subst hn
    simp [rayLengths]
  · have e : rayLengths lo hi n false u = depths lo hi n := by
      unfold rayLengths; rw [if_neg hn]; simp
    simp only [e]
    have hl := depths_length lo hi n
    refine ⟨hl, ?_, ?_, ?_⟩
    · rw [if_neg hn, List.getElem?_eq_getElem (by omega)]
      simp [depths, Vol.linspace]
    · intro h2
      rw [List.getLast?_eq_getElem?, hl, List.getElem?_eq_getElem (by omega), depths_get _ _ (by omega) h2]
      have : ((n - 1 : Nat) : ℝ) = (n : ℝ) - 1 := by rw [Nat.cast_sub (by omega)]; simp
      rw [this, div_self, mul_one]
      · simp
      · have : (2 : ℝ) ≤ n := by exact_mod_cast h2
        linarith
    · intro k h
      have h' : k + 1 < n := by omega
      rw [depths_get _ _ h' (by omega), depths_get _ _ (by omega) (by omega)]
      push_cast
      ring

/-- Lower and upper end of the bin of point `k`. -/
noncomputable def binLo (z : List ℝ) (k : Nat) : ℝ := if k = 0 then z.getD 0 0 else (z.getD (k - 1) 0 + z.getD k 0) / 2
noncomputable def binHi (z : List ℝ) (k : Nat) : ℝ :=
  if k + 1 = z.length then z.getD k 0 else (z.getD k 0 + z.getD (k + 1) 0) / 2

theorem jiggle_get {z u : List ℝ} (hz : z ≠ []) (hu : u.length = z.length) :
    ∃ hl : (jiggle z u).length = z.length, ∀ k (h : k < z.length),
      (jiggle z u)[k]'(hl ▸ h) = binLo z k + (binHi z k - binLo z k) * (u[k]'(hu ▸ h)) := by
  have hpos := List.length_pos_iff.mpr hz
  have hl : (jiggle z u).length = z.length := by
    simp [jiggle, hu]
    omega
  refine ⟨hl, fun k h => ?_⟩
  simp only [jiggle, List.getElem_zipWith, List.getElem_zip]
  have e1 : (z.take 1 ++ List.zipWith (fun a b => 0.5 * (a + b)) z.tail z.dropLast)[k]'(by simp; omega) = binLo z k := by
    unfold binLo
    rcases k with _ | k
    · rw [List.getElem_append_left (by simp; omega)]
      rw [if_pos rfl, List.getD_eq_getElem _ _ hpos, List.getElem_take]
    · rw [List.getElem_append_right (by simp), if_neg (by omega)]
      simp only [List.length_take, List.getElem_zipWith, List.getElem_tail, List.getElem_dropLast]
      rw [List.getD_eq_getElem _ _ h, List.getD_eq_getElem _ _ (by omega)]
      have : k + 1 - min 1 z.length = k := by omega
      simp only [this, Nat.add_sub_cancel]
      ring
  have e2 : (List.zipWith (fun a b => 0.5 * (a + b)) z.tail z.dropLast ++ z.drop (z.length - 1))[k]'(by simp; omega)
      = binHi z k := by
    unfold binHi
    by_cases hk : k + 1 = z.length
    · rw [if_pos hk, List.getElem_append_right (by simp; omega)]
      simp only [List.getElem_drop]
      rw [List.getD_eq_getElem _ _ h]
      congr 1
      simp
      omega
    · rw [if_neg hk, List.getElem_append_left (by simp; omega), List.getD_eq_getElem _ _ h,
        List.getD_eq_getElem _ _ (by omega)]
      simp only [List.getElem_zipWith, List.getElem_tail, List.getElem_dropLast]
      ring
  rw [e1, e2]

/-- **C63 (stratified sampling).** For sorted points and random numbers in [0, 1], each point stays in its bin,
which ends in the middle between neighbouring points; so the order is kept and the first and last point bound
all of them. -/
theorem jiggle_spec {z u : List ℝ} (hz : z ≠ []) (hs : z.Pairwise (· ≤ ·)) (hu : u.length = z.length)
    (hr : ∀ x ∈ u, 0 ≤ x ∧ x ≤ 1) :
    (jiggle z u).length = z.length ∧ (∀ k (h : k < (jiggle z u).length), binLo z k ≤ (jiggle z u)[k] ∧ (jiggle z u)[k] ≤ binHi z k)
    ∧ (jiggle z u).Pairwise (· ≤ ·)
    ∧ ∀ x ∈ jiggle z u, z.getD 0 0 ≤ x ∧ x ≤ z.getD (z.length - 1) 0 := by
  obtain ⟨hl, hg⟩ := jiggle_get hz hu
  have hpos := List.length_pos_iff.mpr hz
  have mono : ∀ a b, a ≤ b → b < z.length → z.getD a 0 ≤ z.getD b 0 := by
    intro a b hab hb
    rcases hab.lt_or_eq with h | rfl
    · rw [List.getD_eq_getElem _ _ (by omega), List.getD_eq_getElem _ _ hb]
      exact List.pairwise_iff_getElem.mp hs a b (by omega) hb h
    · exact le_refl _
  have hle : ∀ k, k < z.length → binLo z k ≤ z.getD k 0 ∧ z.getD k 0 ≤ binHi z k := by
    intro k hk
    unfold binLo binHi
    constructor
    · split_ifs with h0
      · rw [h0]
      · have := mono (k - 1) k (by omega) hk
        linarith
    · split_ifs with h0
      · exact le_refl _
      · have := mono k (k + 1) (by omega) (by omega)
        linarith
  have hin : ∀ k (h : k < (jiggle z u).length), binLo z k ≤ (jiggle z u)[k] ∧ (jiggle z u)[k] ≤ binHi z k := by
    intro k h
    have hk : k < z.length := hl ▸ h
    rw [hg k hk]
    have h1 := hle k hk
    have h2 := hr _ (List.getElem_mem (hu ▸ hk : k < u.length))
    constructor <;> nlinarith
  have hstep : ∀ a b, a < b → b < z.length → binHi z a ≤ binLo z b := by
    intro a b hab hb
    unfold binHi binLo
    rw [if_neg (by omega), if_neg (by omega)]
    have h1 := mono a (b - 1) (by omega) (by omega)
    have h2 := mono (a + 1) b (by omega) hb
    linarith
  refine ⟨hl, hin, ?_, ?_⟩
  · rw [List.pairwise_iff_getElem]
    intro a b ha hb hab
    exact (hin a ha).2.trans ((hstep a b hab (hl ▸ hb)).trans (hin b hb).1)
  · intro x hx
    obtain ⟨k, hk, rfl⟩ := List.mem_iff_getElem.mp hx
    have hk' : k < z.length := hl ▸ hk
    have h1 := hin k hk
    constructor
    · refine le_trans ?_ h1.1
      unfold binLo
      split_ifs with h0
      · exact le_refl _
      · have a1 := mono 0 (k - 1) (by omega) (by omega)
        have a2 := mono 0 k (by omega) hk'
        linarith
    · refine le_trans h1.2 ?_
      unfold binHi
      split_ifs with h0
      · rw [show z.length - 1 = k by omega]
      · have a1 := mono (k + 1) (z.length - 1) (by omega) (by omega)
        have a2 := mono k (z.length - 1) (by omega) (by omega)
        linarith

theorem depths_sorted {lo hi : ℝ} (h : lo ≤ hi) (n : Nat) : (depths lo hi n).Pairwise (· ≤ ·) := by
  rw [List.pairwise_iff_getElem]
  intro a b ha hb hab
  rw [depths_length] at ha hb
  rw [depths_get _ _ ha (by omega), depths_get _ _ hb (by omega)]
  have h1 : (a : ℝ) ≤ b := by exact_mod_cast hab.le
  have h2 : (0 : ℝ) ≤ (n : ℝ) - 1 := by
    have : (1 : ℝ) ≤ n := by exact_mod_cast (by omega : 1 ≤ n)
    linarith
  have := div_le_div_of_nonneg_right h1 h2
  nlinarith

/-- The lengths of a ray are sorted and lie between `min_depth` and `max_depth`, stratified or not. -/
theorem lengths_bounds {lo hi : ℝ} (h : lo ≤ hi) {n : Nat} (strat : Bool) {u : List ℝ} (hu : u.length = n)
    (hr : ∀ x ∈ u, 0 ≤ x ∧ x ≤ 1) :
    (rayLengths lo hi n strat u).length = n ∧ (rayLengths lo hi n strat u).Pairwise (· ≤ ·)
    ∧ ∀ x ∈ rayLengths lo hi n strat u, lo ≤ x ∧ x ≤ hi := by
  by_cases hn : n = 0
  · subst hn
    simp [rayLengths]
  have hl := depths_length lo hi n
  have hs := depths_sorted h n
  have hne : depths lo hi n ≠ [] := by
    intro e
    rw [e] at hl
    simp at hl
    omega
  have h0 : (depths lo hi n).getD 0 0 = lo := by
    rw [List.getD_eq_getElem _ _ (by omega)]
    simp [depths, Vol.linspace]
  have h1 : (depths lo hi n).getD (n - 1) 0 ≤ hi := by
    rw [List.getD_eq_getElem _ _ (by omega)]
    by_cases h2 : 2 ≤ n
    · rw [depths_get _ _ (by omega) h2]
      have : ((n - 1 : Nat) : ℝ) = (n : ℝ) - 1 := by rw [Nat.cast_sub (by omega)]; simp
      have h3 : (2 : ℝ) ≤ n := by exact_mod_cast h2
      rw [this, div_self (by linarith)]
      linarith
    · have : n = 1 := by omega
      subst this
      simpa [depths, Vol.linspace] using h
  cases strat with
  | false =>
    have e : rayLengths lo hi n false u = depths lo hi n := by unfold rayLengths; rw [if_neg hn]; simp
    rw [e]
    refine ⟨hl, hs, fun x hx => ?_⟩
    obtain ⟨k, hk, rfl⟩ := List.mem_iff_getElem.mp hx
    constructor
    · refine le_trans (le_of_eq h0.symm) ?_
      rw [List.getD_eq_getElem _ _ (by omega)]
      rcases Nat.eq_zero_or_pos k with rfl | hp
      · exact le_refl _
      · exact List.pairwise_iff_getElem.mp hs 0 k (by omega) hk hp
    · refine le_trans ?_ h1
      rw [List.getD_eq_getElem _ _ (by omega)]
      rcases Nat.lt_or_ge k (n - 1) with hp | hp
      · exact List.pairwise_iff_getElem.mp hs k (n - 1) hk (by omega) hp
      · have : k = n - 1 := by omega
        subst this
        exact le_refl _
  | true =>
    have e : rayLengths lo hi n true u = jiggle (depths lo hi n) u := by unfold rayLengths; rw [if_neg hn]; simp
    rw [e]
    obtain ⟨j1, -, j3, j4⟩ := jiggle_spec hne hs (hu.trans hl.symm) hr
    refine ⟨j1.trans hl, j3, fun x hx => ?_⟩
    have := j4 x hx
    rw [h0, hl] at this
    exact ⟨this.1, this.2.trans h1⟩

/-! ### Selecting cameras -/

theorem rows_spec {α : Type*} {ids : List Nat} {l : List α} (h : ∀ i ∈ ids, i < l.length) :
    ∃ hl : (rows ids l).length = ids.length, ∀ k (hk : k < ids.length),
      (rows ids l)[k]'(hl ▸ hk) = l[ids[k]]'(h _ (List.getElem_mem hk)) := by
  induction ids with
  | nil => exact ⟨rfl, fun k hk => absurd hk (by simp)⟩
  | cons a ids ih =>
    obtain ⟨h1, h2⟩ := ih fun i hi => h i (List.mem_cons_of_mem _ hi)
    have ha : a < l.length := h a List.mem_cons_self
    have e : rows (a :: ids) l = l[a] :: rows ids l := by
      unfold rows
      rw [List.filterMap_cons_some (b := l[a])]
      simp [ha]
    refine ⟨by rw [e]; simp [h1], fun k hk => ?_⟩
    simp only [e]
    rcases k with _ | k
    · rfl
    · simpa using h2 k (by simpa using hk)

theorem rows_getD {α : Type*} (d : α) {ids : List Nat} {l : List α} (h : ∀ i ∈ ids, i < l.length) {k : Nat}
    (hk : k < ids.length) : (rows ids l).getD k d = l.getD ids[k] d := by
  obtain ⟨h1, h2⟩ := rows_spec h
  rw [List.getD_eq_getElem _ _ (by omega), List.getD_eq_getElem _ _ (h _ (List.getElem_mem hk)), h2 k hk]

theorem rows_map {α β : Type*} (f : α → β) (ids : List Nat) (l : List α) : rows ids (l.map f) = (rows ids l).map f := by
  unfold rows
  rw [List.map_filterMap]
  congr 1
  funext i
  simp

theorem rows_mem {α : Type*} {ids : List Nat} {l : List α} {x : α} (h : x ∈ rows ids l) : x ∈ l := by
  unfold rows at h
  obtain ⟨i, _, hi⟩ := List.mem_filterMap.mp h
  exact List.mem_of_getElem? hi

/-- One parameter, image size and matrix per camera. -/
structure Sized {K : Type*} [Field K] (c : Cam K) : Prop where
  sizes : ∀ hw, c.imageSize = some hw → hw.length = c.n

/-- **C63 (selected cameras).** Indexing a camera object with a list of indices below its length gives cameras that
see every point like the cameras at these indices. -/
theorem indexCam_spec {c : Cam ℝ} (hv : Valid noKw c) (hs : Sized c) {ids : List Nat} (hne : ids ≠ [])
    (hid : ∀ i ∈ ids, i < c.n) :
    ∃ c', indexCam ids c = .ok c' ∧ c'.n = ids.length ∧ Valid noKw c' ∧ (NdcOk c → NdcOk c') ∧ Sized c'
      ∧ (c'.params.isPersp ↔ c.params.isPersp) ∧ (c'.kmat = none ↔ c.kmat = none)
      ∧ ∀ k (h : k < ids.length), viewPoint c' k = viewPoint c ids[k] ∧ ndcPoint c' k = ndcPoint c ids[k]
        ∧ c'.R.getD k 1 = c.R.getD ids[k] 1 := by
  have hmax : ids.foldl max 0 < c.n := by
    rcases StructUtils.foldl_max_mem ids 0 with h | h
    · rw [h]
      obtain ⟨a, as, rfl⟩ := List.exists_cons_of_ne_nil hne
      have := hid a List.mem_cons_self
      omega
    · exact hid _ h
  have hR : c.R.length = c.n := hv.rlen
  have hT : c.T.length = c.n := hv.tlen
  refine ⟨_, by unfold indexCam; rw [if_neg hne, if_neg (by omega)], rfl, ?_⟩
  set c' : Cam ℝ := { n := ids.length, R := rows ids c.R, T := rows ids c.T, kmat := c.kmat.map (rows ids),
                        params := indexParams ids c.params, imageSize := c.imageSize.map (rows ids) } with hc'
  have hpm : projMats noKw c' = rows ids (projMats noKw c) := by
    unfold projMats
    rw [rows_map]
    congr 1
    simp only [noKw, hc', Option.none_or, Option.getD_none]
    cases c.kmat with
    | some ks => rfl
    | none =>
      simp only [Option.map_none, Option.getD_none]
      cases c.params <;> simp [indexParams, calib, rows_map]
  have hpl : ∀ i ∈ ids, i < (projMats noKw c).length := by rw [hv.plen]; exact hid
  have hform : ∀ P, Form c.params P → Form c'.params P := by
    intro P
    simp only [hc']
    cases c.params <;> exact id
  have hinN : c'.params.inNdc = c.params.inNdc := by simp only [hc']; cases c.params <;> rfl
  have hper : c'.params.isPersp ↔ c.params.isPersp := by
    simp only [hc']; cases c.params <;> exact Iff.rfl
  have hpp : ∀ P, ppOf c'.params P = ppOf c.params P := by
    intro P; simp only [hc']; cases c.params <;> rfl
  have hRl : ∀ i ∈ ids, i < c.R.length := by rw [hR]; exact hid
  have hTl : ∀ i ∈ ids, i < c.T.length := by rw [hT]; exact hid
  have hvalid : Valid noKw c' := {
    rlen := (rows_spec hRl).1
    tlen := (rows_spec hTl).1
    plen := by rw [hpm]; exact (rows_spec hpl).1
    rdet := fun r hr => hv.rdet r (rows_mem hr)
    pdet := fun P hP => hv.pdet P (rows_mem (hpm ▸ hP))
    form := fun P hP => hform P (hv.form P (rows_mem (hpm ▸ hP))) }
  have hproj : ∀ k (h : k < ids.length), projMat c' k = projMat c ids[k] := by
    intro k h
    unfold projMat
    rw [hpm, rows_getD _ hpl h]
  have hview : ∀ k (h : k < ids.length), viewPoint c' k = viewPoint c ids[k] := by
    intro k h
    funext p
    unfold viewPoint
    simp only [hc']
    rw [rows_getD _ hRl h, rows_getD _ hTl h]
  refine ⟨hvalid, ?_, ?_, hper, ?_, ?_⟩
  · rintro (h | ⟨hw, h1, h2⟩)
    · exact Or.inl (hinN.trans h)
    · refine Or.inr ⟨rows ids hw, by simp only [hc', h1, Option.map_some], Or.inl ?_, ?_⟩
      · exact (rows_spec (by rw [hs.sizes hw h1]; exact hid)).1
      · exact fun s hsm => h2.2 s (rows_mem hsm)
  · constructor
    intro hw h
    simp only [hc'] at h
    obtain ⟨hw0, h1, rfl⟩ := Option.map_eq_some_iff.mp h
    exact (rows_spec (by rw [hs.sizes hw0 h1]; exact hid)).1
  · simp only [hc', Option.map_eq_none_iff]
  · intro k h
    refine ⟨hview k h, ?_, by simp only [hc']; rw [rows_getD _ hRl h]⟩
    funext p
    unfold ndcPoint viewToNdc
    rw [hview k h, hproj k h, hinN]
    split_ifs with hin
    · rfl
    · unfold ndMat
      rw [hpp]
      have : T3d.pick (0, 0) (c'.imageSize.getD []) k = T3d.pick (0, 0) (c.imageSize.getD []) ids[k] := by
        simp only [hc']
        rcases him : c.imageSize with _ | hw
        · simp [T3d.pick]
        · simp only [Option.map_some, Option.getD_some]
          have hwl := hs.sizes hw him
          have hwi : ∀ i ∈ ids, i < hw.length := by rw [hwl]; exact hid
          unfold T3d.pick
          have e1 : (if (rows ids hw).length = 1 then 0 else k) = k := by
            split_ifs with h1
            · rw [(rows_spec hwi).1] at h1; omega
            · rfl
          have e2 : (if hw.length = 1 then 0 else ids[k]) = ids[k] := by
            split_ifs with h1
            · have := hwi _ (List.getElem_mem h); omega
            · rfl
          rw [e1, e2, rows_getD _ hwi h]
      rw [this]

/-! ### `_safe_multinomial` -/

/-- Indices drawn for one row: positive weights, distinct if there are enough of them. -/
def Drawn (n : Nat) (r : List ℝ) (x : List Nat) : Prop :=
  x.length = n ∧ (∀ k ∈ x, 0 < r.getD k 0) ∧ (n ≤ positives r → x.Nodup)

theorem assign_spec {P : List ℝ → List Nat → Prop} (f : List ℝ → Bool) :
    ∀ (rs : List (List ℝ)) (res r2 : List (List Nat)), List.Forall₂ (fun r x => f r = false → P r x) rs res →
      List.Forall₂ P (rs.filter f) r2 → List.Forall₂ P rs (assign res (rs.map f) r2)
  | [], [], _, _, _ => by simp [assign]
  | r :: rs, x :: res, r2, h1, h2 => by
    rw [List.forall₂_cons] at h1
    rcases hf : f r with _ | _
    · rw [List.filter_cons_of_neg (by simp [hf])] at h2
      simp only [List.map_cons, hf, assign]
      exact List.Forall₂.cons (h1.1 hf) (assign_spec f rs res r2 h1.2 h2)
    · rw [List.filter_cons_of_pos hf] at h2
      cases h2 with
      | cons a b =>
        simp only [List.map_cons, hf, assign]
        exact List.Forall₂.cons a (assign_spec f rs res _ h1.2 b)

theorem forall₂_of_get {α β : Type*} {P : α → β → Prop} {a : List α} {b : List β} (h : b.length = a.length)
    (hp : ∀ i (h1 : i < a.length) (h2 : i < b.length), P a[i] b[i]) : List.Forall₂ P a b := by
  rw [List.forall₂_iff_get]
  exact ⟨h.symm, fun i h1 h2 => hp i h1 h2⟩

/-- **C63 (`_safe_multinomial`).** Whatever `torch.multinomial` draws, for nonnegative rows with a positive weight and
at most as many samples as columns: every row gets `n` indices of positive weights, distinct ones if the row has at
least `n` of them. -/
theorem safe_spec {m : Nat → Mult} (hm : ∀ k, MultSpec (m k)) {cols n : Nat} (hn : 0 < n) (hc : n ≤ cols)
    {rs : List (List ℝ)} (hr : ∀ r ∈ rs, r.length = cols ∧ (∀ x ∈ r, 0 ≤ x) ∧ 0 < positives r) :
    ∃ res, safeMultinomial m cols rs n = .ok res ∧ List.Forall₂ (Drawn n) rs res := by
  have hr' : ∀ r ∈ rs, r.length = cols ∧ ∀ x ∈ r, 0 ≤ x := fun r h => ⟨(hr r h).1, (hr r h).2.1⟩
  unfold safeMultinomial
  rcases e0 : m 0 cols rs n false with e | res
  · obtain ⟨res, e1, l1, p1⟩ := (hm 1).repl cols rs n hn hr
    have hsel : ∀ r ∈ select rs (fun r => decide (n ≤ positives r)),
        r.length = cols ∧ (∀ x ∈ r, 0 ≤ x) ∧ n ≤ positives r := by
      intro r h
      unfold select at h
      rw [List.mem_filter] at h
      exact ⟨(hr r h.1).1, (hr r h.1).2.1, by simpa using h.2⟩
    obtain ⟨r2, e2⟩ := (hm 2).enough cols _ n hn hc hsel
    obtain ⟨l2, p2⟩ := (hm 2).noRepl cols _ n r2 e2 fun r h => ⟨(hsel r h).1, (hsel r h).2.1⟩
    refine ⟨assign res (rs.map fun r => decide (n ≤ positives r)) r2, ?_, ?_⟩
    · simp only [e1, e2]
      rfl
    · apply assign_spec
      · apply forall₂_of_get l1
        intro i h1 h2 hf
        have := p1 i h1 h2
        exact ⟨this.1, this.2, fun h => absurd h (by simpa using hf)⟩
      · apply forall₂_of_get l2
        intro i h1 h2
        have h3 := p2 i h1 h2
        have h4 := h3.2 (hsel _ (List.getElem_mem h1)).2.2
        exact ⟨h3.1, h4.2, fun _ => h4.1⟩
  · obtain ⟨l0, p0⟩ := (hm 0).noRepl cols rs n res e0 hr'
    simp only
    split_ifs with hany
    · have hsel : ∀ r ∈ select rs (fun r => decide (positives r < n)),
          r.length = cols ∧ (∀ x ∈ r, 0 ≤ x) ∧ 0 < positives r := by
        intro r h
        unfold select at h
        exact hr r (List.mem_filter.mp h).1
      obtain ⟨r2, e3, l3, p3⟩ := (hm 3).repl cols _ n hn hsel
      refine ⟨assign res (rs.map fun r => decide (positives r < n)) r2, ?_, ?_⟩
      · simp only [e3]
        rfl
      · apply assign_spec
        · apply forall₂_of_get l0
          intro i h1 h2 hf
          have h3 := p0 i h1 h2
          have h4 := h3.2 (by simpa using hf)
          exact ⟨h3.1, h4.2, fun _ => h4.1⟩
        · apply forall₂_of_get l3
          intro i h1 h2
          have h3 := p3 i h1 h2
          have h4 : positives (select rs fun r => decide (positives r < n))[i] < n := by
            have := List.getElem_mem h1
            exact of_decide_eq_true (List.mem_filter.mp this).2
          exact ⟨h3.1, h3.2, fun h => absurd h (by omega)⟩
    · refine ⟨res, rfl, forall₂_of_get l0 fun i h1 h2 => ?_⟩
      have h3 := p0 i h1 h2
      have h5 : ¬ positives rs[i] < n := by
        intro h
        apply hany
        rw [List.any_eq_true]
        exact ⟨rs[i], List.getElem_mem h1, by simpa using h⟩
      have h4 := h3.2 (by omega)
      exact ⟨h3.1, h4.2, fun _ => h4.1⟩

/-- **C63 (too many samples).** `_safe_multinomial` raises when no samples or more samples than columns are requested,
although its documentation promises sampling with replacement: the second call without replacement is made even if
no row is left for it. -/
theorem safe_error {m : Nat → Mult} (hm : ∀ k, MultSpec (m k)) {cols n : Nat} (hc : n = 0 ∨ cols < n)
    (rs : List (List ℝ)) : ∃ e, safeMultinomial m cols rs n = .error e := by
  have h0 : ∃ e, m 0 cols rs n false = .error e := by
    rcases hc with rfl | h
    · exact (hm 0).zero _ _ _
    · exact (hm 0).many _ _ _ h
  obtain ⟨e0, h0⟩ := h0
  have h2 : ∃ e, m 2 cols (select rs fun r => decide (n ≤ positives r)) n false = .error e := by
    rcases hc with rfl | h
    · exact (hm 2).zero _ _ _
    · exact (hm 2).many _ _ _ h
  obtain ⟨e2, h2⟩ := h2
  unfold safeMultinomial
  rw [h0]
  rcases h1 : m 1 cols rs n true with e1 | res
  · exact ⟨e1, by simp only [h1]; rfl⟩
  · exact ⟨e2, by simp only [h1, h2]; rfl⟩

/-! ### The grid -/

theorem grid_length (s : Sampler) : (grid s).length = s.H * s.W := by
  simp [grid, List.length_flatMap]

theorem flatMap_grid {α : Type*} (f : Nat → Nat → α) (H W : Nat) {y x : Nat} (hy : y < H) (hx : x < W) :
    ((List.range H).flatMap fun y => (List.range W).map (f y))[y * W + x]? = some (f y x) := by
  induction H with
  | zero => omega
  | succ H ih =>
    rw [List.range_succ, List.flatMap_append]
    have hl : ((List.range H).flatMap fun y => (List.range W).map (f y)).length = H * W := by
      simp [List.length_flatMap]
    by_cases h : y < H
    · rw [List.getElem?_append_left (by rw [hl]; nlinarith)]
      exact ih h
    · have : y = H := by omega
      subst this
      rw [List.getElem?_append_right (by rw [hl]; omega), hl, Nat.add_sub_cancel_left]
      simp [hx]

theorem grid_get (s : Sampler) {y x : Nat} (hy : y < s.H) (hx : x < s.W) :
    (grid s)[y * s.W + x]? = some (Vol.linspace s.minX s.maxX s.W x, Vol.linspace s.minY s.maxY s.H y) :=
  flatMap_grid (fun y x => (Vol.linspace s.minX s.maxX s.W x, Vol.linspace s.minY s.maxY s.H y)) s.H s.W hy hx

theorem centre_eq (S1 S2 : Nat) (h2 : 0 < S2) {i : Nat} (hi : i < S1) :
    Vol.linspace ((if S2 ≤ S1 then (S1 : ℝ) / S2 else 1) - (if S2 ≤ S1 then (S1 : ℝ) / S2 else 1) / S1)
      (-(if S2 ≤ S1 then (S1 : ℝ) / S2 else 1) + (if S2 ≤ S1 then (S1 : ℝ) / S2 else 1) / S1) S1 i
      = Raster.pixToNdc (S1 - 1 - i) S1 S2 := by
  have e : (if S2 ≤ S1 then (S1 : ℝ) / S2 else 1) = Raster.ndcRange (F := ℝ) S1 S2 / 2 := by
    unfold Raster.ndcRange
    have h2' : (S2 : ℝ) ≠ 0 := by exact_mod_cast h2.ne'
    split_ifs with a b b
    · ring
    · have : S1 = S2 := by omega
      subst this
      field_simp
    · omega
    · ring
  rw [e]
  unfold Raster.pixToNdc
  have hS1 : (S1 : ℝ) ≠ 0 := by
    have : 0 < S1 := by omega
    exact_mod_cast this.ne'
  rw [Nat.cast_sub (by omega), Nat.cast_sub (by omega)]
  generalize Raster.ndcRange (F := ℝ) S1 S2 = r
  unfold Vol.linspace
  split_ifs with h1
  · subst h1
    have : i = 0 := by omega
    subst this
    simp
  · have h3 : (S1 : ℝ) - 1 ≠ 0 := by
      have : (S1 : ℝ) ≠ 1 := by exact_mod_cast h1
      intro h; apply this; linarith
    push_cast
    field_simp
    ring

/-- **C63 (pixel centres).** The image points of `NDCMultinomialRaysampler` are the NDC coordinates that the
rasterizers use for the pixels of an image with the same size (row `y` and column `x` of the output of the rasterizers
are pixels `H - 1 - y` and `W - 1 - x` of their loops), for every image size; on the screen this is
`(x + 1/2, y + 1/2)`. -/
theorem ndc_grid (o : Opts) (nPer nTotal : Option Nat) {W H y x : Nat} (hy : y < H) (hx : x < W) :
    (grid (ndcSampler W H o nPer nTotal))[y * W + x]?
      = some (Raster.pixToNdc (W - 1 - x) W H, Raster.pixToNdc (H - 1 - y) H W) ∧
    ∀ z, transformPoint none ⟨Raster.pixToNdc (W - 1 - x) W H, Raster.pixToNdc (H - 1 - y) H W, z⟩
      (screenMat true ((H : ℝ), (W : ℝ))) = ⟨x + 1 / 2, y + 1 / 2, z⟩ := by
  have hW : 0 < W := by omega
  have hH : 0 < H := by omega
  constructor
  · have := grid_get (ndcSampler W H o nPer nTotal) (y := y) (x := x) hy hx
    have e1 := centre_eq W H hH hx
    have e2 := centre_eq H W hW hy
    have hflip : (if W ≤ H then (H : ℝ) / W else 1) = if H ≤ W then 1 else (H : ℝ) / W := by
      split_ifs with a b b
      · have : W = H := by omega
        subst this
        exact div_self (by exact_mod_cast hW.ne')
      · rfl
      · rfl
      · omega
    rw [hflip] at e2
    show (grid (ndcSampler W H o nPer nTotal))[y * (ndcSampler W H o nPer nTotal).W + x]? = _
    rw [this, ← e1, ← e2]
    rfl
  · intro z
    rw [screenMat_point]
    have hW' : (W : ℝ) ≠ 0 := by exact_mod_cast hW.ne'
    have hH' : (H : ℝ) ≠ 0 := by exact_mod_cast hH.ne'
    unfold half Raster.pixToNdc Raster.ndcRange
    rw [Nat.cast_sub (by omega), Nat.cast_sub (by omega), Nat.cast_sub (by omega), Nat.cast_sub (by omega)]
    rcases Nat.lt_trichotomy W H with h | h | h
    · have hc : (W : ℝ) ≤ H := by exact_mod_cast h.le
      simp only [min_eq_right hc, gt_iff_lt, if_neg (by omega : ¬ H < W), if_pos h]
      ext <;> simp <;> field_simp <;> ring
    · subst h
      simp only [min_self, gt_iff_lt, lt_irrefl, if_false]
      ext <;> simp <;> field_simp <;> ring
    · have hc : (H : ℝ) ≤ W := by exact_mod_cast h.le
      simp only [min_eq_left hc, gt_iff_lt, if_neg (by omega : ¬ W < H), if_pos h]
      ext <;> simp <;> field_simp <;> ring

/-! ### The samplers -/

/-- A ray of camera `i` through an image point of the grid with positive weight, with the depths of the options. -/
def RayOk (s : Sampler) (a : Args) (u : Nat → Nat → List ℝ) (c : Cam ℝ) (w : List ℝ) (i : Nat) (r : Ray) : Prop :=
  OnRay c i s.opts.unit r ∧ (∃ k, 0 < w.getD k 0 ∧ (grid s)[k]? = some r.xy) ∧
  ∃ p q, r.lengths = rayLengths (a.lo.getD s.opts.lo) (a.hi.getD s.opts.hi) (a.nPts.getD s.opts.nPts)
    (a.strat.getD s.opts.strat) (u p q)

/-- The weights of a call: the mask or ones. -/
def weights (s : Sampler) (mask : Option (List (List ℝ))) (n : Nat) : List (List ℝ) :=
  mask.getD (List.replicate n (List.replicate (s.H * s.W) 1))

/-- Every camera has one nonnegative weight per pixel and a positive one. -/
def WeightsOk (s : Sampler) (w : List (List ℝ)) (n : Nat) : Prop :=
  w.length = n ∧ ∀ r ∈ w, r.length = s.H * s.W ∧ (∀ x ∈ r, 0 ≤ x) ∧ 0 < positives r

theorem weightsOk_ones {s : Sampler} (h : 0 < s.H * s.W) (n : Nat) : WeightsOk s (weights s none n) n := by
  refine ⟨by simp [weights], fun r hr => ?_⟩
  have hr' : r ∈ List.replicate n (List.replicate (s.H * s.W) (1 : ℝ)) := hr
  rw [List.eq_of_mem_replicate hr']
  refine ⟨by simp, fun x hx => by rw [List.eq_of_mem_replicate hx]; exact zero_le_one, ?_⟩
  unfold positives
  rw [List.countP_replicate]
  simpa using h

theorem ones_positives (n : Nat) : positives (List.replicate n 1) = n := by
  unfold positives
  rw [List.countP_replicate]
  simp

theorem images_spec {s : Sampler} {a : Args} {r : Rnd} (hm : ∀ k, MultSpec (r.mult k)) {c : Cam ℝ}
    (hv : Valid noKw c) (hn : NdcOk c) {mask : Option (List (List ℝ))} (hw : WeightsOk s (weights s mask c.n) c.n)
    {nPer : Option Nat} {n : Nat} (hnr : nRays mask nPer = .ok (some n)) (h0 : 0 < n) (h1 : n ≤ s.H * s.W) :
    ∃ rays, sampleImages s a r c mask nPer = .ok rays ∧ rays.length = c.n ∧
      ∀ i (h : i < rays.length), (∀ x ∈ rays[i], RayOk s a r.u c ((weights s mask c.n).getD i []) i x) ∧
        ∃ idx, Drawn n ((weights s mask c.n).getD i []) idx ∧
          rays[i].map Ray.xy = idx.map fun k => (grid s).getD k (0, 0) := by
  obtain ⟨idx, e1, f1⟩ := safe_spec hm h0 h1 hw.2
  have hl := f1.length_eq
  have hil : idx.length = c.n := by rw [← hl]; exact hw.1
  have hip : imagePoints s r.mult c.R.length mask (some n)
      = .ok (idx.map fun l => l.map fun k => (grid s).getD k (0, 0)) := by
    have hR : c.R.length = c.n := hv.rlen
    unfold imagePoints
    cases mask with
    | none =>
      simp only [weights, Option.getD_none] at e1
      rw [hR]
      simp only [bind, Except.bind, e1]
    | some m =>
      simp only [weights, Option.getD_some] at e1 hw
      have hcond : m.length = c.R.length ∧ (m.all fun r => r.length = s.H * s.W) = true :=
        ⟨by rw [hR]; exact hw.1, by rw [List.all_eq_true]; exact fun r h => by simpa using (hw.2 r h).1⟩
      simp only [if_pos hcond, bind, Except.bind, e1]
  obtain ⟨rays, g1, g2, g3⟩ := rays_spec (callOpts s a) r.u hv hn
    (xy := idx.map fun l => l.map fun k => (grid s).getD k (0, 0)) (by simpa using hil)
  have hrl : rays.length = c.n := by
    have := congrArg List.length g2
    simpa [hil] using this
  refine ⟨rays, ?_, hrl, fun i h => ?_⟩
  · unfold sampleImages
    simp only [hnr, hip, bind, Except.bind, g1]
  · have hi : i < idx.length := by omega
    have hiw : i < (weights s mask c.n).length := by omega
    have hxy : rays[i].map Ray.xy = idx[i].map fun k => (grid s).getD k (0, 0) := by
      have := congrArg (fun l => l[i]?) g2
      simpa [h, hi] using this
    have hd : Drawn n ((weights s mask c.n).getD i []) idx[i] := by
      rw [List.getD_eq_getElem _ _ hiw]
      have := (List.forall₂_iff_get.mp f1).2 i hiw hi
      simpa using this
    refine ⟨fun x hx => ?_, idx[i], hd, hxy⟩
    obtain ⟨j, hj, rfl⟩ := List.mem_iff_getElem.mp hx
    have g := g3 i h j hj
    refine ⟨g.1, ?_, i, j, g.2⟩
    have hj' : j < idx[i].length := by
      have := congrArg List.length hxy
      simp only [List.length_map] at this
      omega
    refine ⟨idx[i][j], hd.2.1 _ (List.getElem_mem hj'), ?_⟩
    have hx : rays[i][j].xy = (grid s).getD idx[i][j] (0, 0) := by
      have := congrArg (fun l => l[j]?) hxy
      simpa [hj, hj'] using this
    have hk : idx[i][j] < (grid s).length := by
      have hp := hd.2.1 _ (List.getElem_mem hj')
      rw [grid_length, ← (hw.2 _ (List.getElem_mem hiw)).1]
      rw [List.getD_eq_getElem _ _ hiw] at hp
      by_contra hc
      rw [List.getD_eq_default _ _ (by omega)] at hp
      exact lt_irrefl _ hp
    rw [hx, List.getD_eq_getElem _ _ hk, List.getElem?_eq_getElem hk]

/-- **C63 (all pixels).** Without numbers of rays and mask, `forward` returns for every camera the rays of the whole
grid, in row-major order. -/
theorem forward_full {s : Sampler} {a : Args} {r : Rnd} {c : Cam ℝ} (hv : Valid noKw c) (hn : NdcOk c)
    (hmask : a.mask = none) (hper : pyOr a.nPer s.nPer = none) (htot : pyOr a.nTotal s.nTotal = none) :
    ∃ rays, forward s a r c = .ok (.bundle rays) ∧ rays.map (List.map Ray.xy) = List.replicate c.n (grid s) ∧
      ∀ i (h : i < rays.length), ∀ j (hj : j < rays[i].length), OnRay c i s.opts.unit rays[i][j] ∧
        rays[i][j].lengths = rayLengths (a.lo.getD s.opts.lo) (a.hi.getD s.opts.hi) (a.nPts.getD s.opts.nPts)
          (a.strat.getD s.opts.strat) (r.u i j) := by
  have hR : c.R.length = c.n := hv.rlen
  obtain ⟨rays, g1, g2, g3⟩ := rays_spec (callOpts s a) r.u hv hn (xy := List.replicate c.n (grid s)) (by simp)
  refine ⟨rays, ?_, g2, g3⟩
  unfold forward
  simp only [hper, htot, hmask, sampleImages, nRays, imagePoints, hR, bind, Except.bind, g1]
  simp

/-- **C63 (subsampling and masks).** With `n` rays per image (or, without a number, with the integer part of the
smallest mask sum), `forward` returns for every camera `n` rays through pixels of positive weight, through distinct
pixels if there are `n` of them. -/
theorem forward_some {s : Sampler} {a : Args} {r : Rnd} (hm : ∀ k, MultSpec (r.mult k)) {c : Cam ℝ}
    (hv : Valid noKw c) (hn : NdcOk c) (htot : pyOr a.nTotal s.nTotal = none)
    (hw : WeightsOk s (weights s a.mask c.n) c.n) {n : Nat} (hnr : nRays a.mask (pyOr a.nPer s.nPer) = .ok (some n))
    (h0 : 0 < n) (h1 : n ≤ s.H * s.W) :
    ∃ rays, forward s a r c = .ok (.bundle rays) ∧ rays.length = c.n ∧
      ∀ i (h : i < rays.length), (∀ x ∈ rays[i], RayOk s a r.u c ((weights s a.mask c.n).getD i []) i x) ∧
        ∃ idx, Drawn n ((weights s a.mask c.n).getD i []) idx ∧
          rays[i].map Ray.xy = idx.map fun k => (grid s).getD k (0, 0) := by
  obtain ⟨rays, g1, g2, g3⟩ := images_spec (a := a) hm hv hn hw hnr h0 h1
  refine ⟨rays, ?_, g2, g3⟩
  unfold forward
  simp only [htot, Option.isSome_none, Bool.false_eq_true, false_and, if_false, g1, bind, Except.bind]

/-- The number of rays for a mask alone. -/
theorem mask_count {B : Nat} {m : List (List ℝ)} (hl : m.length = B + 1) (h : ∀ r ∈ m, 0 ≤ r.sum) :
    ∃ n, nRays (some m) none = .ok (some n) ∧ (∀ r ∈ m, (n : ℝ) ≤ r.sum) ∧ ∃ r ∈ m, r.sum < n + 1 := by
  obtain ⟨r, rs, rfl⟩ := List.exists_cons_of_length_eq_add_one hl
  have key : ∀ (l : List ℝ) (x : ℝ), (l.foldl min x ≤ x ∧ ∀ y ∈ l, l.foldl min x ≤ y) ∧
      (l.foldl min x = x ∨ l.foldl min x ∈ l) := by
    intro l
    induction l with
    | nil => intro x; simp
    | cons b l ih =>
      intro x
      obtain ⟨⟨i1, i2⟩, i3⟩ := ih (min x b)
      simp only [List.foldl_cons, List.mem_cons]
      refine ⟨⟨i1.trans (min_le_left _ _), ?_⟩, ?_⟩
      · rintro y (rfl | hy)
        · exact i1.trans (min_le_right _ _)
        · exact i2 y hy
      · rcases i3 with i3 | i3
        · rcases min_choice x b with h | h
          · left; rw [i3, h]
          · right; left; rw [i3, h]
        · exact Or.inr (Or.inr i3)
  obtain ⟨⟨k1, k2⟩, k3⟩ := key (rs.map List.sum) r.sum
  set v := (rs.map List.sum).foldl min r.sum with hvd
  have hmem : ∃ q ∈ r :: rs, q.sum = v := by
    rcases k3 with k3 | k3
    · exact ⟨r, List.mem_cons_self, k3.symm⟩
    · obtain ⟨q, hq, e⟩ := List.mem_map.mp k3
      exact ⟨q, List.mem_cons_of_mem _ hq, e⟩
  obtain ⟨q, hq, hqs⟩ := hmem
  have hv0 : 0 ≤ v := by rw [← hqs]; exact h q hq
  refine ⟨⌊v⌋₊, by simp [nRays, minMask, Except.map, hvd], fun t ht => ?_, q, hq, ?_⟩
  · refine (Nat.floor_le hv0).trans ?_
    rcases List.mem_cons.mp ht with rfl | ht
    · exact k1
    · exact k2 _ (List.mem_map.mpr ⟨t, ht, rfl⟩)
  · rw [hqs]; exact Nat.lt_floor_add_one v

/-! ### `n_rays_total` -/

theorem mem_uniqueIds {n : Nat} {ids : List Nat} (h : ∀ i ∈ ids, i < n) {i : Nat} : i ∈ uniqueIds n ids ↔ i ∈ ids := by
  simp only [uniqueIds, List.mem_filter, List.mem_range, List.contains_iff_mem, and_iff_right_iff_imp]
  exact h i

theorem uniqueIds_sorted (n : Nat) (ids : List Nat) : (uniqueIds n ids).Pairwise (· < ·) :=
  List.Pairwise.filter _ List.pairwise_lt_range

theorem counts_sum {n : Nat} {ids : List Nat} (h : ∀ i ∈ ids, i < n) : (counts n ids).sum = ids.length := by
  have hp : (uniqueIds n ids).Perm ids.dedup := by
    rw [List.perm_ext_iff_of_nodup ((uniqueIds_sorted n ids).imp fun h => Nat.ne_of_lt h) (List.nodup_dedup _)]
    intro i
    rw [mem_uniqueIds h, List.mem_dedup]
  unfold counts
  rw [(hp.map _).sum_eq]
  exact List.sum_map_count_dedup_eq_length ids

theorem pack_spec {rays : List (List Ray)} {ids cnt : List Nat} (hne : cnt ≠ []) (hl : rays.length = cnt.length) {M : Nat}
    (hM : ∀ r ∈ rays, r.length = M) (hc : ∀ n ∈ cnt, n ≤ M) :
    pack rays ids cnt = some ⟨(List.zipWith (fun l n => l.take n) rays cnt).flatten, ids, cnt⟩ := by
  set x : List (List Ray) := cnt.map fun n => List.replicate n ⟨0, 0, [], (0, 0)⟩ with hx
  have hxl : x.map List.length = cnt := by
    rw [hx, List.map_map]
    conv_rhs => rw [← List.map_id cnt]
    exact List.map_congr_left fun n _ => by simp
  have hxs : x.flatten.length = cnt.sum := by rw [List.length_flatten, hxl]
  have hfirst : PackedPadded.firstIdxs x = 0 :: StructUtils.cumsumFrom 0 cnt.dropLast := by
    rw [StructUtils.firstIdx_eq _ hne]
    unfold PackedPadded.firstIdxs StructUtils.offset
    rw [show x.length = cnt.length by simp [hx]]
    apply List.map_congr_left
    intro k _
    rw [List.map_take, hxl]
  have h0 : (rays.map List.length).getD 0 0 = M := by
    have : rays ≠ [] := by
      rintro rfl
      exact hne (List.length_eq_zero_iff.mp hl.symm)
    obtain ⟨r, rs, rfl⟩ := List.exists_cons_of_ne_nil this
    simpa using hM r List.mem_cons_self
  have := PackedPadded.paddedToPacked_correct (⟨0, 0, [], (0, 0)⟩ : Ray) x rays M (by simp [hx, hl]) hM
    (by
      intro y hy
      obtain ⟨n, hn, rfl⟩ := List.mem_map.mp (hx ▸ hy)
      simpa using hc n hn) _ (List.Perm.refl _)
  unfold pack PackedPadded.paddedToPacked
  rw [h0, ← hfirst, ← hxs, this, hxl]
  rfl

/-- A heterogeneous bundle for the sampled cameras `ids`: the distinct cameras in increasing order with their numbers
of occurrences, and for every one of them that many rays which satisfy `P`. -/
def Grouped (ids : List Nat) (P : Nat → List Ray → Prop) (h : Hetero) : Prop :=
  h.cameraIds.Pairwise (· < ·) ∧ (∀ i, i ∈ h.cameraIds ↔ i ∈ ids) ∧ h.cameraCounts = h.cameraIds.map ids.count ∧
  h.rays.length = ids.length ∧ ∃ groups : List (List Ray), h.rays = groups.flatten ∧
    groups.map List.length = h.cameraCounts ∧ List.Forall₂ P h.cameraIds groups

theorem grouped_pack {n : Nat} {ids : List Nat} (hne : ids ≠ []) (hid : ∀ i ∈ ids, i < n) {rays : List (List Ray)}
    (hl : rays.length = (uniqueIds n ids).length) (hM : ∀ r ∈ rays, r.length = (counts n ids).foldl max 0)
    {P Q : Nat → List Ray → Prop} (hQ : List.Forall₂ Q (uniqueIds n ids) rays)
    (hP : ∀ i l k, Q i l → P i (l.take k)) :
    ∃ h, pack rays (uniqueIds n ids) (counts n ids) = some h ∧ Grouped ids P h := by
  have hcl : (counts n ids).length = (uniqueIds n ids).length := by simp [counts]
  have hcne : counts n ids ≠ [] := by
    intro h
    have := counts_sum hid
    rw [h] at this
    exact hne (List.length_eq_zero_iff.mp this.symm)
  have hcm := (StructUtils.foldl_max_ge (counts n ids) 0).2
  refine ⟨_, pack_spec hcne (by omega) hM hcm, uniqueIds_sorted n ids, fun i => mem_uniqueIds hid, rfl, ?_, ?_⟩
  · rw [List.length_flatten, ← counts_sum hid]
    congr 1
    apply List.ext_getElem (by simp [hl, hcl])
    intro k h1 h2
    have hk : k < rays.length := by omega
    have h3 := hM _ (List.getElem_mem hk)
    have h4 := hcm _ (List.getElem_mem h2)
    simp only [List.getElem_map, List.getElem_zipWith, List.length_take]
    omega
  · refine ⟨_, rfl, ?_, ?_⟩
    · apply List.ext_getElem (by simp [hl, hcl])
      intro k h1 h2
      have h2' : k < (counts n ids).length := h2
      have hk : k < rays.length := by omega
      have h3 := hM _ (List.getElem_mem hk)
      have h4 := hcm _ (List.getElem_mem h2')
      simp only [List.getElem_map, List.getElem_zipWith, List.length_take]
      omega
    · rw [List.forall₂_iff_get] at hQ ⊢
      refine ⟨by simp [hl, hcl], fun k h1 h2 => ?_⟩
      have h1' : k < (uniqueIds n ids).length := h1
      have hk : k < rays.length := by omega
      have := hQ.2 k h1 hk
      simp only [List.get_eq_getElem, List.getElem_zipWith] at this ⊢
      exact hP _ _ _ this

theorem sees_index {c c' : Cam ℝ} {i j : Nat} (hp : c'.params.isPersp ↔ c.params.isPersp)
    (hk : c'.kmat = none ↔ c.kmat = none) (hv : viewPoint c' i = viewPoint c j) (hn : ndcPoint c' i = ndcPoint c j)
    {unit : Bool} {r : Ray} (h : OnRay c' i unit r) : OnRay c j unit r := by
  obtain ⟨d, ⟨h1, h2⟩, h3⟩ := h
  refine ⟨d, ⟨fun a b => ?_, fun z => ?_⟩, h3⟩
  · rw [← hv]; exact h1 (hp.mpr a) (hk.mpr b)
  · rw [← hv, ← hn]
    exact ⟨(h2 z).1, fun a => (h2 z).2 fun b => a (hp.mp b)⟩

/-- **C63 (`n_rays_total`).** With a total number of rays and sampled camera indices `r.ids`, `forward` returns a
heterogeneous bundle with one ray per sampled index: the rays are grouped by camera, in increasing order of the
camera, every group has as many rays as the camera has been sampled, and they are rays of this camera of the
original batch through pixels with positive weight, distinct ones if the camera has at least as many of them as the
largest group. -/
theorem forward_total {s : Sampler} {a : Args} {r : Rnd} (hm : ∀ k, MultSpec (r.mult k)) {c : Cam ℝ}
    (hv : Valid noKw c) (hn : NdcOk c) (hs : Sized c) {t : Nat} (htot : pyOr a.nTotal s.nTotal = some (t + 1))
    (hper : pyOr a.nPer s.nPer = none) (hids : r.ids.length = t + 1) (hid : ∀ i ∈ r.ids, i < c.n)
    (hw : WeightsOk s (weights s a.mask c.n) c.n) (hmax : (counts c.n r.ids).foldl max 0 ≤ s.H * s.W) :
    ∃ h, forward s a r c = .ok (.hetero (some h)) ∧ Grouped r.ids (fun i g =>
      (∀ x ∈ g, RayOk s a r.u c ((weights s a.mask c.n).getD i []) i x) ∧
      ((counts c.n r.ids).foldl max 0 ≤ positives ((weights s a.mask c.n).getD i []) →
        ∃ idx : List Nat, idx.Nodup ∧ g.map Ray.xy = idx.map fun k => (grid s).getD k (0, 0))) h := by
  have hne : r.ids ≠ [] := by rintro h; rw [h] at hids; simp at hids
  obtain ⟨i0, _, hi0⟩ := List.exists_cons_of_ne_nil hne
  have hcn : 0 < c.n := by
    have := hid i0 (by rw [hi0]; exact List.mem_cons_self)
    omega
  set U := uniqueIds c.n r.ids with hU
  set M := (counts c.n r.ids).foldl max 0 with hMd
  have hUid : ∀ i ∈ U, i < c.n := fun i hi => hid i ((mem_uniqueIds hid).mp hi)
  have hUne : U ≠ [] := by
    intro h
    have : i0 ∈ U := (mem_uniqueIds hid).mpr (by rw [hi0]; exact List.mem_cons_self)
    rw [h] at this
    simp at this
  obtain ⟨c', e1, n1, v1, o1, _, p1, k1, l1⟩ := indexCam_spec hv hs hUne hUid
  have hM0 : 0 < M := by
    by_contra h
    have h0 : ∀ x ∈ counts c.n r.ids, x = 0 := by
      intro x hx
      have := (StructUtils.foldl_max_ge (counts c.n r.ids) 0).2 x hx
      omega
    have := counts_sum hid
    rw [List.sum_eq_zero h0] at this
    omega
  set w := weights s a.mask c.n with hwd
  have hwU : ∀ i ∈ U, i < w.length := fun i hi => by rw [hw.1]; exact hUid i hi
  -- the selected mask
  set mask' := a.mask.map (rows U) with hmask'
  have hw' : weights s mask' c'.n = rows U w := by
    rw [hmask', hwd, n1]
    unfold weights
    cases a.mask with
    | some m => rfl
    | none =>
      simp only [Option.map_none, Option.getD_none]
      have hb : ∀ i ∈ U, i < (List.replicate c.n (List.replicate (s.H * s.W) (1 : ℝ))).length := by
        simpa using hUid
      apply List.ext_getElem
      · simp [(rows_spec hb).1]
      · intro k h1 h2
        have hk : k < U.length := by simpa using h1
        rw [(rows_spec hb).2 k hk]
        simp
  have hwok : WeightsOk s (weights s mask' c'.n) c'.n := by
    rw [hw']
    exact ⟨by rw [(rows_spec hwU).1, n1], fun q hq => hw.2 q (rows_mem hq)⟩
  have hsel : selectMask U a.mask = .ok mask' := by
    rw [hmask']
    rcases hma : a.mask with _ | m
    · rfl
    · have : ¬ m.length ≤ U.foldl max 0 := by
        have hml : m.length = c.n := by
          have := hw.1
          simpa [hwd, weights, hma] using this
        rcases StructUtils.foldl_max_mem U 0 with h | h
        · omega
        · have := hUid _ h
          omega
      simp only [selectMask, if_neg this, Option.map_some]
  obtain ⟨rays, g1, g2, g3⟩ := images_spec (s := s) (a := a) (r := r) hm v1 (o1 hn) hwok (nPer := some M) (n := M)
    (by unfold nRays; cases mask' <;> rfl) hM0 hmax
  have hlenM : ∀ q ∈ rays, q.length = M := by
    intro q hq
    obtain ⟨k, hk, rfl⟩ := List.mem_iff_getElem.mp hq
    obtain ⟨idx, d1, d2⟩ := (g3 k hk).2
    have := congrArg List.length d2
    simp only [List.length_map] at this
    rw [this, d1.1]
  obtain ⟨h, q1, q2⟩ := grouped_pack (n := c.n) hne hid (rays := rays) (by rw [g2, n1]) hlenM
    (Q := fun i g => (∀ x ∈ g, RayOk s a r.u c (w.getD i []) i x) ∧ (M ≤ positives (w.getD i []) →
        ∃ idx : List Nat, idx.Nodup ∧ g.map Ray.xy = idx.map fun k => (grid s).getD k (0, 0)))
    (P := fun i g => (∀ x ∈ g, RayOk s a r.u c (w.getD i []) i x) ∧ (M ≤ positives (w.getD i []) →
        ∃ idx : List Nat, idx.Nodup ∧ g.map Ray.xy = idx.map fun k => (grid s).getD k (0, 0)))
    (by
      apply forall₂_of_get (by rw [g2, n1])
      intro k h1 h2
      have hk := g3 k h2
      have hwk : (weights s mask' c'.n).getD k [] = w.getD U[k] [] := by rw [hw', rows_getD _ hwU h1]
      rw [hwk] at hk
      obtain ⟨hk1, idx, hk2, hk3⟩ := hk
      have hl := l1 k h1
      refine ⟨fun x hx => ?_, fun hp => ⟨idx, hk2.2.2 hp, hk3⟩⟩
      obtain ⟨a1, a2, a3⟩ := hk1 x hx
      exact ⟨sees_index p1 k1 hl.1 hl.2.1 a1, a2, a3⟩)
    (by
      rintro i l k ⟨a1, a2⟩
      refine ⟨fun x hx => a1 x (List.mem_of_mem_take hx), fun hp => ?_⟩
      obtain ⟨idx, b1, b2⟩ := a2 hp
      exact ⟨idx.take k, b1.sublist (List.take_sublist _ _), by rw [List.map_take, b2, List.map_take]⟩)
  refine ⟨h, ?_, q2⟩
  rw [← hU] at q1
  unfold forward
  simp only [htot, hper, Option.isSome_none, Bool.false_eq_true, and_false, if_false, if_neg hcn.ne']
  simp only [bind, Except.bind, ← hU, ← hMd, e1, hsel, g1, q1]

/-- **C63 (conflicts).** Two numbers of rays raise `ValueError`, with `0` standing for "not given". -/
theorem forward_conflict {s : Sampler} {a : Args} {r : Rnd} {c : Cam ℝ} (h1 : (pyOr a.nTotal s.nTotal).isSome)
    (h2 : (pyOr a.nPer s.nPer).isSome) : forward s a r c = .error .value := by
  unfold forward
  simp only [h1, h2, and_self, if_true]

/-- **C63 (options).** The numbers of rays given in the call replace those of the sampler; `0` in the call counts as not
given. -/
theorem forward_options (s : Sampler) (a : Args) (r : Rnd) (c : Cam ℝ) (k : Nat) :
    forward s { a with nPer := some 0 } r c = forward s { a with nPer := none } r c ∧
    forward s { a with nTotal := some 0 } r c = forward s { a with nTotal := none } r c ∧
    forward s { a with nPer := some (k + 1) } r c = forward { s with nPer := some (k + 1) } { a with nPer := none } r c ∧
    forward s { a with nTotal := some (k + 1) } r c = forward { s with nTotal := some (k + 1) } { a with nTotal := none } r c := by
  refine ⟨rfl, rfl, ?_, ?_⟩ <;> rfl

/-- **C63 (too many rays).** More rays per image than pixels raise an error, with and without mask. -/
theorem forward_too_many {s : Sampler} {a : Args} {r : Rnd} (hm : ∀ k, MultSpec (r.mult k)) {c : Cam ℝ} {n : Nat}
    (htot : pyOr a.nTotal s.nTotal = none) (hnr : nRays a.mask (pyOr a.nPer s.nPer) = .ok (some n))
    (hn : n = 0 ∨ s.H * s.W < n) : ∃ e, forward s a r c = .error e := by
  have key : ∃ e, imagePoints s r.mult c.R.length a.mask (some n) = .error e := by
    unfold imagePoints
    rcases a.mask with _ | m
    · obtain ⟨e, he⟩ := safe_error hm hn (List.replicate c.R.length (List.replicate (s.H * s.W) 1))
      exact ⟨e, by simp only [bind, Except.bind, he]⟩
    · obtain ⟨e, he⟩ := safe_error hm hn m
      simp only [bind, Except.bind]
      split_ifs
      · exact ⟨e, by simp only [he]⟩
      · exact ⟨_, rfl⟩
  obtain ⟨e, he⟩ := key
  refine ⟨e, ?_⟩
  unfold forward sampleImages
  simp only [htot, Option.isSome_none, Bool.false_eq_true, false_and, if_false, hnr, he, bind, Except.bind]

/-! ### `MonteCarloRaysampler` -/

/-- A ray of camera `i` through an image point between the bounds. -/
def McOk (s : Sampler) (c : Cam ℝ) (i : Nat) (r : Ray) : Prop :=
  OnRay c i s.opts.unit r ∧ s.minX ≤ r.xy.1 ∧ r.xy.1 ≤ s.maxX ∧ s.minY ≤ r.xy.2 ∧ r.xy.2 ≤ s.maxY

theorem mc_point {lo hi t : ℝ} (h : lo ≤ hi) (h0 : 0 ≤ t) (h1 : t < 1) :
    lo ≤ t * (hi - lo) + lo ∧ t * (hi - lo) + lo ≤ hi := by
  constructor <;> nlinarith [mul_nonneg h0 (sub_nonneg.mpr h)]

theorem mc_rays {s : Sampler} {o : Opts} (ho : o.unit = s.opts.unit) (hx : s.minX ≤ s.maxX) (hy : s.minY ≤ s.maxY)
    {v : Nat → Nat → ℝ × ℝ} (hvv : ∀ i j, (0 ≤ (v i j).1 ∧ (v i j).1 < 1) ∧ 0 ≤ (v i j).2 ∧ (v i j).2 < 1)
    (u : Nat → Nat → List ℝ) {c : Cam ℝ} (hv : Valid noKw c) (hn : NdcOk c) (n : Nat) :
    ∃ rays, xyToRays o u c ((List.range c.R.length).map fun i => (List.range n).map fun j =>
        ((v i j).1 * (s.maxX - s.minX) + s.minX, (v i j).2 * (s.maxY - s.minY) + s.minY)) = .ok rays ∧
      rays.length = c.n ∧ (∀ l ∈ rays, l.length = n) ∧ ∀ i (h : i < rays.length), ∀ x ∈ rays[i], McOk s c i x := by
  have hR : c.R.length = c.n := hv.rlen
  obtain ⟨rays, g1, g2, g3⟩ := rays_spec o u hv hn (xy := (List.range c.R.length).map fun i => (List.range n).map fun j =>
        ((v i j).1 * (s.maxX - s.minX) + s.minX, (v i j).2 * (s.maxY - s.minY) + s.minY)) (by simp [hR])
  have hrl : rays.length = c.n := by
    have := congrArg List.length g2
    simpa [hR] using this
  have hrow : ∀ i (h : i < rays.length), rays[i].map Ray.xy = (List.range n).map fun j =>
      ((v i j).1 * (s.maxX - s.minX) + s.minX, (v i j).2 * (s.maxY - s.minY) + s.minY) := by
    intro i h
    have := congrArg (fun l => l[i]?) g2
    have hi : i < c.R.length := by omega
    simpa [h, hi] using this
  refine ⟨rays, g1, hrl, fun l hl => ?_, fun i h x hx' => ?_⟩
  · obtain ⟨i, hi, rfl⟩ := List.mem_iff_getElem.mp hl
    have := congrArg List.length (hrow i hi)
    simpa using this
  · obtain ⟨j, hj, rfl⟩ := List.mem_iff_getElem.mp hx'
    have hm : rays[i][j].xy ∈ rays[i].map Ray.xy := List.mem_map.mpr ⟨_, List.getElem_mem hj, rfl⟩
    rw [hrow i h] at hm
    obtain ⟨k, _, hk⟩ := List.mem_map.mp hm
    have hb := hvv i k
    refine ⟨ho ▸ (g3 i h j hj).1, ?_⟩
    rw [← hk]
    have b1 := mc_point hx hb.1.1 hb.1.2
    have b2 := mc_point hy hb.2.1 hb.2.2
    exact ⟨b1.1, b1.2, b2.1, b2.2⟩

/-- **C63 (`MonteCarloRaysampler`, per image).** `n` rays per camera through image points between the bounds. -/
theorem mc_per {s : Sampler} (hx : s.minX ≤ s.maxX) (hy : s.minY ≤ s.maxY) {v : Nat → Nat → ℝ × ℝ}
    (hvv : ∀ i j, (0 ≤ (v i j).1 ∧ (v i j).1 < 1) ∧ 0 ≤ (v i j).2 ∧ (v i j).2 < 1) (strat : Option Bool) (r : Rnd)
    {c : Cam ℝ} (hv : Valid noKw c) (hn : NdcOk c) {n : Nat} (hper : s.nPer = some n) (htot : s.nTotal = none) :
    ∃ rays, monteCarlo s strat v r c = .ok (.bundle rays) ∧ rays.length = c.n ∧ (∀ l ∈ rays, l.length = n) ∧
      ∀ i (h : i < rays.length), ∀ x ∈ rays[i], McOk s c i x := by
  obtain ⟨rays, g1, g2⟩ := mc_rays (o := { s.opts with strat := strat.getD s.opts.strat }) rfl hx hy hvv r.u hv hn n
  refine ⟨rays, ?_, g2⟩
  unfold monteCarlo
  simp only [hper, htot, g1, bind, Except.bind]

/-- **C63 (`MonteCarloRaysampler`, total).** One ray per sampled camera index, grouped by camera. -/
theorem mc_total {s : Sampler} (hx : s.minX ≤ s.maxX) (hy : s.minY ≤ s.maxY) {v : Nat → Nat → ℝ × ℝ}
    (hvv : ∀ i j, (0 ≤ (v i j).1 ∧ (v i j).1 < 1) ∧ 0 ≤ (v i j).2 ∧ (v i j).2 < 1) (strat : Option Bool) {r : Rnd}
    {c : Cam ℝ} (hv : Valid noKw c) (hn : NdcOk c) (hs : Sized c) {t : Nat} (hper : s.nPer = none)
    (htot : s.nTotal = some (t + 1)) (hids : r.ids.length = t + 1) (hid : ∀ i ∈ r.ids, i < c.n) :
    ∃ h, monteCarlo s strat v r c = .ok (.hetero (some h)) ∧ Grouped r.ids (fun i g => ∀ x ∈ g, McOk s c i x) h := by
  have hne : r.ids ≠ [] := by rintro h; rw [h] at hids; simp at hids
  obtain ⟨i0, _, hi0⟩ := List.exists_cons_of_ne_nil hne
  have hcn : 0 < c.n := by
    have := hid i0 (by rw [hi0]; exact List.mem_cons_self)
    omega
  set U := uniqueIds c.n r.ids with hU
  have hUid : ∀ i ∈ U, i < c.n := fun i hi => hid i ((mem_uniqueIds hid).mp hi)
  have hUne : U ≠ [] := by
    intro h
    have : i0 ∈ U := (mem_uniqueIds hid).mpr (by rw [hi0]; exact List.mem_cons_self)
    rw [h] at this
    simp at this
  obtain ⟨c', e1, n1, v1, o1, _, p1, k1, l1⟩ := indexCam_spec hv hs hUne hUid
  obtain ⟨rays, g1, g2, g3, g4⟩ := mc_rays (o := { s.opts with strat := strat.getD s.opts.strat }) rfl hx hy hvv r.u v1
    (o1 hn) ((counts c.n r.ids).foldl max 0)
  obtain ⟨h, q1, q2⟩ := grouped_pack (n := c.n) hne hid (rays := rays) (by rw [g2, n1]) g3
    (Q := fun i g => ∀ x ∈ g, McOk s c i x) (P := fun i g => ∀ x ∈ g, McOk s c i x)
    (by
      apply forall₂_of_get (by rw [g2, n1])
      intro k h1 h2 x hx
      have hl := l1 k h1
      obtain ⟨a1, a2⟩ := g4 k h2 x hx
      exact ⟨sees_index p1 k1 hl.1 hl.2.1 a1, a2⟩)
    (fun i l k hq x hx => hq x (List.mem_of_mem_take hx))
  refine ⟨h, ?_, q2⟩
  rw [← hU] at q1
  unfold monteCarlo
  simp only [hper, htot, if_neg hcn.ne']
  simp only [bind, Except.bind, ← hU, e1, g1, q1]

/-! ### Examples -/

/-- Indices of positive weights. -/
noncomputable def posIdx (r : List ℝ) : List Nat := (List.range r.length).filter fun k => decide (0 < r.getD k 0)

theorem posIdx_length (r : List ℝ) : (posIdx r).length = positives r := by
  unfold posIdx positives
  rw [← List.countP_eq_length_filter]
  conv_rhs => rw [show r = (List.range r.length).map fun k => r.getD k 0 from
    List.ext_getElem (by simp) fun k h1 h2 => by simp [h1], List.countP_map]
  simp [Function.comp_def]

/-- A deterministic function with the guarantees of `torch.multinomial`: they can be met. -/
noncomputable def exMult : Mult := fun cols rs n repl =>
  if n = 0 then .error .runtime
  else if repl then .ok (rs.map fun r => List.replicate n ((posIdx r).headD 0))
  else if cols < n ∨ rs.any (fun r => decide (positives r < n)) then .error .runtime
  else .ok (rs.map fun r => (posIdx r).take n)

theorem exMult_spec : MultSpec exMult where
  zero := fun cols rs b => ⟨.runtime, by simp [exMult]⟩
  many := fun cols rs n h => ⟨.runtime, by simp [exMult, h]⟩
  repl := fun cols rs n hn h => by
    refine ⟨rs.map fun r => List.replicate n ((posIdx r).headD 0), by simp [exMult, hn.ne'], by simp, fun i h1 h2 => ?_⟩
    rw [List.getElem_map]
    refine ⟨by simp, fun k hk => ?_⟩
    rw [List.eq_of_mem_replicate hk]
    have hp := (h _ (List.getElem_mem h1)).2.2
    rw [← posIdx_length] at hp
    obtain ⟨a, as, e⟩ := List.exists_cons_of_length_pos hp
    rw [e, List.headD_cons]
    have : a ∈ posIdx rs[i] := by rw [e]; exact List.mem_cons_self
    exact of_decide_eq_true (List.mem_filter.mp this).2
  enough := fun cols rs n hn hc h => by
    refine ⟨rs.map fun r => (posIdx r).take n, ?_⟩
    unfold exMult
    rw [if_neg hn.ne', if_neg (by simp), if_neg]
    simp only [List.any_eq_true, decide_eq_true_eq, not_or, not_lt, not_exists, not_and]
    exact ⟨hc, fun r hr => (h r hr).2.2⟩
  noRepl := fun cols rs n res e h => by
    unfold exMult at e
    split_ifs at e with h1 h2 h3
    · exact absurd h2 (by simp)
    · simp only [Except.ok.injEq] at e
      subst e
      simp only [List.any_eq_true, decide_eq_true_eq, not_or, not_lt, not_exists, not_and] at h3
      refine ⟨by simp, fun i h1 h2 => ?_⟩
      rw [List.getElem_map]
      have hp := h3.2 _ (List.getElem_mem h1)
      rw [← posIdx_length] at hp
      refine ⟨by simp; omega, fun _ => ⟨?_, fun k hk => ?_⟩⟩
      · exact (List.Nodup.filter _ List.nodup_range).sublist (List.take_sublist _ _)
      · exact of_decide_eq_true (List.mem_filter.mp (List.mem_of_mem_take hk)).2

/-- Two perspective cameras in screen space, one of them rotated. -/
noncomputable def exRayCam : Cam ℝ where
  n := 2
  R := [⟨1, 0, 0, 0, 1, 0, 0, 0, 1⟩, ⟨0, 1, 0, -1, 0, 0, 0, 0, 1⟩]
  T := [⟨0, 0, 5⟩, ⟨1, 2, 3⟩]
  kmat := none
  params := .persp false [⟨100, 120, 60, 40⟩, ⟨50, 50, 10, 20⟩]
  imageSize := some [(80, 120), (40, 30)]

theorem exRayCam_valid : Valid noKw exRayCam := by
  apply valid_of_params ⟨rfl, rfl⟩ rfl
  · show ∀ c ∈ _, _
    simp [Sfm.Ok]
  · rfl
  · rfl
  · rfl
  · show ∀ r ∈ _, _
    simp [setRT_noKw, exRayCam, M3.det]

theorem exRayCam_ndc : NdcOk exRayCam := by
  refine Or.inr ⟨_, rfl, Or.inl rfl, ?_⟩
  simp [half]

theorem exRayCam_sized : Sized exRayCam := ⟨fun hw h => by
  simp only [exRayCam, Option.some.injEq] at h
  subst h
  rfl⟩

noncomputable def exSampler (nPer nTotal : Option Nat) : Sampler :=
  ndcSampler 3 2 { lo := 1, hi := 4, nPts := 4, unit := false, strat := false } nPer nTotal

noncomputable def exRnd : Rnd := { mult := fun _ => exMult, u := fun _ _ => [], ids := [1, 0, 1] }

-- the samplers on these cameras: all pixels, a mask with two pixels, three rays in total
example := forward_full (s := exSampler none none) (a := {}) (r := exRnd) exRayCam_valid exRayCam_ndc rfl rfl rfl

theorem exMask_ok : WeightsOk (exSampler none none) (weights (exSampler none none)
    (some [[1, 0, 1, 0, 0, 0], [0, 0, 0, 1, 1, 1]]) 2) 2 := by
  refine ⟨rfl, ?_⟩
  simp [weights, positives, exSampler, ndcSampler]

example : ∃ rays, forward (exSampler none none) { mask := some [[1, 0, 1, 0, 0, 0], [0, 0, 0, 1, 1, 1]] } exRnd exRayCam
    = .ok (.bundle rays) ∧ rays.length = 2 := by
  obtain ⟨rays, h1, h2, _⟩ := forward_some (s := exSampler none none)
    (a := { mask := some [[1, 0, 1, 0, 0, 0], [0, 0, 0, 1, 1, 1]] }) (r := exRnd) (fun _ => exMult_spec) exRayCam_valid
    exRayCam_ndc rfl exMask_ok (n := 2) (by
      have h : (⌊((1 : ℝ) + 1)⌋₊) = 2 := by rw [one_add_one_eq_two]; exact Nat.floor_ofNat 2
      have h' : min ((1 : ℝ) + 1) (1 + (1 + 1)) = 1 + 1 := by norm_num
      simp [nRays, exSampler, ndcSampler, pyOr, minMask, Except.map, h, h']) (by norm_num)
      (by simp [exSampler, ndcSampler])
  exact ⟨rays, h1, h2⟩

example : ∃ h, forward (exSampler none (some 3)) {} exRnd exRayCam = .ok (.hetero (some h)) ∧ h.cameraCounts.sum = 3 := by
  have hc : counts 2 [1, 0, 1] = [1, 2] := by decide
  obtain ⟨h, h1, h2, h3, h4, h5, h6⟩ := forward_total (s := exSampler none (some 3)) (a := {}) (r := exRnd)
    (fun _ => exMult_spec) exRayCam_valid exRayCam_ndc exRayCam_sized (t := 2) rfl rfl rfl
    (by simp [exRnd, exRayCam]) (weightsOk_ones (by simp [exSampler, ndcSampler]) _)
    (by simp [exRnd, exRayCam, hc, exSampler, ndcSampler])
  refine ⟨h, h1, ?_⟩
  obtain ⟨g, g1, g2, _⟩ := h6
  rw [← g2, ← List.length_flatten, ← g1, h5]
  rfl

example : ∃ e, forward (exSampler (some 7) none) {} exRnd exRayCam = .error e :=
  forward_too_many (fun _ => exMult_spec) rfl (n := 7) rfl (Or.inr (by simp [exSampler, ndcSampler]))

example : forward (exSampler (some 2) none) { nTotal := some 3 } exRnd exRayCam = .error .value :=
  forward_conflict rfl rfl

-- the NDC image points of a 2 x 3 image
example : (grid (exSampler none none))[1 * 3 + 0]? = some ((1 : ℝ), (-1 / 2 : ℝ)) := by
  have := (ndc_grid { lo := 1, hi := 4, nPts := 4, unit := false, strat := false } none none (W := 3) (H := 2) (y := 1)
    (x := 0) (by omega) (by omega)).1
  rw [show exSampler none none = ndcSampler 3 2 { lo := 1, hi := 4, nPts := 4, unit := false, strat := false } none none
    from rfl, this]
  norm_num [Raster.pixToNdc, Raster.ndcRange]

example : depths 1 4 4 = [1, 2, 3, 4] := by
  norm_num [depths, List.range_succ, Vol.linspace]

end P3D.Rays
