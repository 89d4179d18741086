/-
Intersection over union of oriented 3D boxes: `ops/iou_box3d.py`, `csrc/iou_box3d/iou_utils.h`,
`csrc/iou_box3d/iou_box3d_cpu.cpp` and the normal of a face in `csrc/iou_box3d/iou_utils.cuh`.

The part of the code that does not take square roots is written once, over any ordered field and any
`Ops`; `ops` are the operations of the C++ code, over the reals, and `sq K` the same operations with
the comparisons squared, which are rational and compute.  `overlap_eq` says that both give the same.
Floating point, NaN and devices are not modelled.
-/
import Verif.Vec3
import Mathlib.Analysis.Real.Sqrt
import Mathlib.Tactic.Ring
import Mathlib.Tactic.Linarith
import Mathlib.Tactic.Positivity
import Mathlib.Tactic.FieldSimp
import Mathlib.Tactic.LinearCombination
import Mathlib.Tactic.Push
import Mathlib.Tactic.NormNum
import Mathlib.Data.Rat.Cast.Order
import Mathlib.Algebra.BigOperators.Group.List.Basic

set_option linter.unusedSectionVars false

namespace P3D.IoU

open V3

/-! ### Boxes, triangles, planes -/

/-- `face_verts` of a triangle, `iou_utils.h:65`. -/
structure Tri (K : Type) where
  v0 : V3 K
  v1 : V3 K
  v2 : V3 K
  deriving DecidableEq

/-- `face_verts` of a plane of the box, `iou_utils.h:65`. -/
structure Quad (K : Type) where
  v0 : V3 K
  v1 : V3 K
  v2 : V3 K
  v3 : V3 K
  deriving DecidableEq

/-- The `(8, 3)` corners of a box. -/
abbrev Box (K : Type) := Fin 8 → V3 K

/-- `_PLANES`, `iou_utils.h:39-46`. -/
def planesIdx : List (Fin 8 × Fin 8 × Fin 8 × Fin 8) :=
  [(0, 1, 2, 3), (3, 2, 6, 7), (0, 1, 5, 4), (0, 3, 7, 4), (1, 5, 6, 2), (4, 5, 6, 7)]

/-- `_TRIS`, `iou_utils.h:47-60`, and `_box_triangles`, `iou_box3d.py:34-47`. -/
def trisIdx : List (Fin 8 × Fin 8 × Fin 8) :=
  [(0, 1, 2), (0, 3, 2), (4, 5, 6), (4, 6, 7), (1, 5, 6), (1, 6, 2), (0, 4, 7), (0, 7, 3),
    (3, 2, 6), (3, 6, 7), (0, 1, 5), (0, 4, 5)]

/-- `GetBoxTris`, `iou_utils.h:104-115`. -/
def boxTris {K : Type} (b : Box K) : List (Tri K) :=
  trisIdx.map fun i => ⟨b i.1, b i.2.1, b i.2.2⟩

/-- `GetBoxPlanes`, `iou_utils.h:124-135`. -/
def boxPlanes {K : Type} (b : Box K) : List (Quad K) :=
  planesIdx.map fun i => ⟨b i.1, b i.2.1, b i.2.2.1, b i.2.2.2⟩

section generic
variable {K : Type} [Field K] [LinearOrder K] [IsStrictOrderedRing K]

/-- `TriCenter`, `iou_utils.h:159-166`. -/
def triCenter (t : Tri K) : V3 K := (1 / 3 : K) • (t.v0 + t.v1 + t.v2)

/-- `PlaneCenter`, `iou_utils.h:205-213`. -/
def planeCenter (q : Quad K) : V3 K := (1 / 4 : K) • (q.v0 + q.v1 + q.v2 + q.v3)

/-- `BoxCenter`, `iou_utils.h:339-346`. -/
def boxCenter (b : Box K) : V3 K :=
  (1 / 8 : K) • (b 0 + b 1 + b 2 + b 3 + b 4 + b 5 + b 6 + b 7)

/-- One term of `BoxVolume`, `iou_utils.h:319-326`. -/
def tet (c : V3 K) (t : Tri K) : K := |dot (t.v0 - c) (cross (t.v1 - c) (t.v2 - c))| / 6

/-- `BoxVolume`, `iou_utils.h:311-329`. -/
def boxVolume (l : List (Tri K)) (c : V3 K) : K := (l.map (tet c)).sum

/-- `PolyhedronCenter`, `iou_utils.h:357-384`. -/
def polyCenter (l : List (Tri K)) : V3 K :=
  (1 / (l.length : K)) • (l.map triCenter).sum

/-- The signed height over a plane, `iou_utils.h:410-414`: `dot((point - plane_ctr), normal)`. -/
def height (q : Quad K) (n p : V3 K) : K := dot (p - planeCenter q) n

/-- `IsInside`, `iou_utils.h:402-417`. -/
def isInside (q : Quad K) (n p : V3 K) : Bool := decide (0 ≤ height q n p)

/-- The point `p0 + a * (p1 - p0)` of `PlaneEdgeIntersection`, `iou_utils.h:451-454`. -/
def crossing (q : Quad K) (n p0 p1 : V3 K) : V3 K :=
  p0 + (-1 * dot (p0 - planeCenter q) n / dot (p1 - p0) n) • (p1 - p0)

/-- The midpoint, `iou_utils.h:448`. -/
def middle (p0 p1 : V3 K) : V3 K := (1 / 2 : K) • (p1 + p0)

/-- `ClipTriByPlaneOneOut`, `iou_utils.h:572-585`; `edge` is `PlaneEdgeIntersection(plane, normal, ·, ·)`. -/
def oneOut (edge : V3 K → V3 K → V3 K) (vout vin1 vin2 : V3 K) : List (Tri K) :=
  [⟨vin1, edge vin1 vout, edge vin2 vout⟩, ⟨vin1, edge vin2 vout, vin2⟩]

/-- `ClipTriByPlaneTwoOut`, `iou_utils.h:602-614`. -/
def twoOut (edge : V3 K → V3 K → V3 K) (vout1 vout2 vin : V3 K) : List (Tri K) :=
  [⟨vin, edge vin vout1, edge vin vout2⟩]

/-- `ClipTriByPlane`, `iou_utils.h:632-690`, given what `IsCoplanarTriPlane`, `IsInside` and
`PlaneEdgeIntersection` return. -/
def clipWith (cop : Bool) (inside : V3 K → Bool) (edge : V3 K → V3 K → V3 K) (t : Tri K) :
    List (Tri K) :=
  if cop then [t] else
  match inside t.v0, inside t.v1, inside t.v2 with
  | true, true, true => [t]
  | false, false, false => []
  | true, true, false => oneOut edge t.v2 t.v0 t.v1
  | true, false, true => oneOut edge t.v1 t.v0 t.v2
  | false, true, true => oneOut edge t.v0 t.v1 t.v2
  | true, false, false => twoOut edge t.v1 t.v2 t.v0
  | false, false, true => twoOut edge t.v0 t.v1 t.v2
  | false, true, false => twoOut edge t.v0 t.v2 t.v1

/-- The operations that need the length of a vector. -/
structure Ops (K : Type) where
  /-- `PlaneNormalDirection(plane, center)` -/
  dir : Quad K → V3 K → V3 K
  /-- `PlaneEdgeIntersection(plane, normal, p0, p1)` -/
  edge : Quad K → V3 K → V3 K → V3 K → V3 K
  /-- `IsCoplanarTriPlane(tri, plane, normal)` -/
  cop : Tri K → Quad K → V3 K → Bool
  /-- `IsCoplanarTriTri(tri1, tri2)` -/
  tt : Tri K → Tri K → Bool
  /-- `FaceArea(tri) > aEpsilon` -/
  big : Tri K → Bool

/-- `ClipTriByPlane`, `iou_utils.h:632-690`. -/
def clip (o : Ops K) (q : Quad K) (n : V3 K) (t : Tri K) : List (Tri K) :=
  clipWith (o.cop t q n) (isInside q n) (o.edge q n) t

/-- One round of the loop over the planes in `BoxIntersections`, `iou_utils.h:714-729`. -/
def cut (o : Ops K) (center : V3 K) (l : List (Tri K)) (q : Quad K) : List (Tri K) :=
  l.flatMap (clip o q (o.dir q center))

/-- `BoxIntersections`, `iou_utils.h:706-732`. -/
def boxIntersections (o : Ops K) (tris : List (Tri K)) (planes : List (Quad K)) (center : V3 K) :
    List (Tri K) := planes.foldl (cut o center) tris

/-- The triangles of the second box that are kept, `iou_box3d_cpu.cpp:74-85`. -/
def keep (o : Ops K) (l1 l2 : List (Tri K)) : List (Tri K) :=
  l2.filter fun b2 => !l1.any fun b1 => o.tt b1 b2 && o.big b1

/-- The faces of the intersecting shape, `iou_box3d_cpu.cpp:65-94`. -/
def shape (o : Ops K) (b1 b2 : Box K) : List (Tri K) :=
  let i1 := boxIntersections o (boxTris b1) (boxPlanes b2) (boxCenter b2)
  let i2 := boxIntersections o (boxTris b2) (boxPlanes b1) (boxCenter b1)
  i1 ++ keep o i1 i2

/-- The volume of a box, `iou_box3d_cpu.cpp:43`. -/
def vol1 (b : Box K) : K := boxVolume (boxTris b) (boxCenter b)

/-- The volume of the intersecting shape, `iou_box3d_cpu.cpp:98-108`. -/
def shapeVol (l : List (Tri K)) : K := if l = [] then 0 else boxVolume l (polyCenter l)

/-- The IoU, `iou_box3d_cpu.cpp:99, 110`. -/
def shapeIou (l : List (Tri K)) (w1 w2 : K) : K :=
  if l = [] then 0 else shapeVol l / (w1 + w2 - shapeVol l)

/-- One entry of `IoUBox3DCpu`, `iou_box3d_cpu.cpp:28-114`: volume and IoU. -/
def overlap (o : Ops K) (b1 b2 : Box K) : K × K :=
  (shapeVol (shape o b1 b2), shapeIou (shape o b1 b2) (vol1 b1) (vol1 b2))

/-- `IoUBox3DCpu`, `iou_box3d_cpu.cpp:13-118`. -/
def overlaps (o : Ops K) (bs1 bs2 : List (Box K)) : List (List (K × K)) :=
  bs1.map fun b1 => bs2.map fun b2 => overlap o b1 b2

end generic

/-! ### The operations of the code -/

noncomputable section

/-- `dEpsilon`, `iou_utils.h:25`. -/
def dEps : ℝ := 1 / 1000
/-- `aEpsilon`, `iou_utils.h:27`. -/
def aEps : ℝ := 1 / 10000
/-- `kEpsilon`, `iou_utils.h:29`. -/
def kEps : ℝ := 1 / 100000000

/-- `norm`, `utils/vec3.h`. -/
def norm3 (v : V3 ℝ) : ℝ := √(normSq v)

/-- `v / std::fmaxf(norm(v), kEpsilon)`. -/
def unit (v : V3 ℝ) : V3 ℝ := (max (norm3 v) kEps)⁻¹ • v

/-- `GetNormal`, `iou_utils.h:144-148`. -/
def getNormal (e0 e1 : V3 ℝ) : V3 ℝ := unit (cross e0 e1)

/-- The body of the loops in `TriNormal` and `PlaneNormal`, `iou_utils.h:187-190, 235-238`:
`max_dist` stays at -1. -/
def normalStep (c n : V3 ℝ) (e : V3 ℝ × V3 ℝ) : V3 ℝ :=
  if norm3 (cross (e.1 - c) (e.2 - c)) > -1 then getNormal (e.1 - c) (e.2 - c) else n

/-- The body of the loop in `FaceNormal` of the CUDA code, `iou_utils.cuh:176-184`: `maxDist` is an
integer, so that assigning `dist` to it truncates. -/
def normalStepCuda (c : V3 ℝ) (s : V3 ℝ × ℤ) (e : V3 ℝ × V3 ℝ) : V3 ℝ × ℤ :=
  if norm3 (cross (e.1 - c) (e.2 - c)) > (s.2 : ℝ) then
    (getNormal (e.1 - c) (e.2 - c), ⌊norm3 (cross (e.1 - c) (e.2 - c))⌋)
  else s

/-- The pairs of vertices in the order of the loops, `iou_utils.h:184-185`. -/
def triPairs (t : Tri ℝ) : List (V3 ℝ × V3 ℝ) := [(t.v0, t.v1), (t.v0, t.v2), (t.v1, t.v2)]

/-- The pairs of vertices in the order of the loops, `iou_utils.h:232-233`. -/
def quadPairs (q : Quad ℝ) : List (V3 ℝ × V3 ℝ) :=
  [(q.v0, q.v1), (q.v0, q.v2), (q.v0, q.v3), (q.v1, q.v2), (q.v1, q.v3), (q.v2, q.v3)]

/-- `TriNormal`, `iou_utils.h:177-194`. -/
def triNormal (t : Tri ℝ) : V3 ℝ := (triPairs t).foldl (normalStep (triCenter t)) 0

/-- `PlaneNormal`, `iou_utils.h:225-242`. -/
def planeNormal (q : Quad ℝ) : V3 ℝ := (quadPairs q).foldl (normalStep (planeCenter q)) 0

/-- `FaceNormal` of a triangle on the GPU, `iou_utils.cuh:170-189`. -/
def triNormalCuda (t : Tri ℝ) : V3 ℝ := ((triPairs t).foldl (normalStepCuda (triCenter t)) (0, -1)).1

/-- `FaceNormal` of a plane on the GPU, `iou_utils.cuh:170-189`. -/
def planeNormalCuda (q : Quad ℝ) : V3 ℝ :=
  ((quadPairs q).foldl (normalStepCuda (planeCenter q)) (0, -1)).1

/-- `PlaneNormalDirection`, `iou_utils.h:276-299`, given the normal. -/
def direct (c pc n : V3 ℝ) : V3 ℝ := if dot (c - pc) n < 0 then (-1 : ℝ) • n else n

/-- `PlaneNormalDirection`, `iou_utils.h:276-299`. -/
def planeDir (q : Quad ℝ) (center : V3 ℝ) : V3 ℝ := direct center (planeCenter q) (planeNormal q)

/-- `PlaneEdgeIntersection`, `iou_utils.h:432-457`. -/
def planeEdge (q : Quad ℝ) (n p0 p1 : V3 ℝ) : V3 ℝ :=
  if dEps ≤ |dot (unit (p1 - p0)) n| then crossing q n p0 p1 else middle p0 p1

/-- The body of the loops of `ArgMaxVerts`, `iou_utils.h:478-482`. -/
def argStep (s : V3 ℝ × V3 ℝ × ℝ) (e : V3 ℝ × V3 ℝ) : V3 ℝ × V3 ℝ × ℝ :=
  if norm3 (e.1 - e.2) > s.2.2 then (e.1, e.2, norm3 (e.1 - e.2)) else s

/-- `v1m - v2m` for the vertices returned by `ArgMaxVerts`, `iou_utils.h:469-486, 512-516`. -/
def farthest (l : List (V3 ℝ × V3 ℝ)) : V3 ℝ :=
  (l.foldl argStep (0, 0, -1)).1 - (l.foldl argStep (0, 0, -1)).2.1

/-- `FaceArea`, `iou_utils.h:255-262`. -/
def faceArea (t : Tri ℝ) : ℝ := norm3 (cross (t.v1 - t.v0) (t.v2 - t.v0)) / 2

end

/-- The vertices of a triangle. -/
def Tri.verts {K : Type} (t : Tri K) : List (V3 K) := [t.v0, t.v1, t.v2]

/-- The vertices of a plane. -/
def Quad.verts {K : Type} (q : Quad K) : List (V3 K) := [q.v0, q.v1, q.v2, q.v3]

/-- The pairs of the loops `for v1 : verts1, for v2 : verts2`, `iou_utils.h:476-477`. -/
def pairs {K : Type} (l1 l2 : List (V3 K)) : List (V3 K × V3 K) :=
  l1.flatMap fun a => l2.map fun b => (a, b)

noncomputable section

/-- `IsCoplanarTriTri`, `iou_utils.h:498-525`. -/
def coplanarTT (t1 t2 : Tri ℝ) : Bool :=
  let n := unit (farthest (pairs t1.verts t2.verts))
  decide (|dot (triNormal t1) (triNormal t2)| > 1 - dEps) &&
    (decide (|dot n (triNormal t1)| < dEps) || decide (|dot n (triNormal t2)| < dEps))

/-- `IsCoplanarTriPlane`, `iou_utils.h:538-560`. -/
def coplanarTP (t : Tri ℝ) (q : Quad ℝ) (normal : V3 ℝ) : Bool :=
  decide (|dot (triNormal t) normal| > 1 - dEps) &&
    decide (|dot (unit (farthest (pairs t.verts q.verts))) normal| < dEps)

/-- The operations of the C++ code. -/
def ops : Ops ℝ where
  dir := planeDir
  edge := planeEdge
  cop := coplanarTP
  tt := coplanarTT
  big t := decide (faceArea t > aEps)

end

/-! ### The same operations without square roots -/

section squared
variable (K : Type) [Field K] [LinearOrder K] [IsStrictOrderedRing K]

variable {K} in
/-- The square of `max(norm(v), kEpsilon)`. -/
def m2 (v : V3 K) : K := max (normSq v) ((1 / 100000000) ^ 2)

variable {K} in
/-- The multiple of the normal of a triangle that the last round of the loops normalises. -/
def triCross (t : Tri K) : V3 K := cross (t.v1 - triCenter t) (t.v2 - triCenter t)

variable {K} in
/-- The multiple of the normal of a plane that the last round of the loops normalises. -/
def planeCross (q : Quad K) : V3 K := cross (q.v2 - planeCenter q) (q.v3 - planeCenter q)

variable {K} in
/-- `PlaneNormalDirection` before normalisation. -/
def dirS (q : Quad K) (center : V3 K) : V3 K :=
  if dot (center - planeCenter q) (planeCross q) < 0 then (-1 : K) • planeCross q else planeCross q

variable {K} in
/-- Is the edge steep enough for the plane to be intersected? -/
def Steep (d n : V3 K) : Prop := (1 / 1000) ^ 2 * (m2 d * m2 n) ≤ dot d n ^ 2

variable {K} in
instance (d n : V3 K) : Decidable (Steep d n) := inferInstanceAs (Decidable (_ ≤ _))

variable {K} in
/-- `PlaneEdgeIntersection` with a squared comparison. -/
def edgeS (q : Quad K) (n p0 p1 : V3 K) : V3 K :=
  if Steep (p1 - p0) n then crossing q n p0 p1 else middle p0 p1

variable {K} in
/-- The body of the loops of `ArgMaxVerts` with squared distances. -/
def argStepS (s : V3 K × V3 K × K) (e : V3 K × V3 K) : V3 K × V3 K × K :=
  if normSq (e.1 - e.2) > s.2.2 then (e.1, e.2, normSq (e.1 - e.2)) else s

variable {K} in
/-- `v1m - v2m` with squared distances. -/
def farthestS (l : List (V3 K × V3 K)) : V3 K :=
  (l.foldl argStepS (0, 0, -1)).1 - (l.foldl argStepS (0, 0, -1)).2.1

variable {K} in
/-- `abs(dot(n1, n2)) > 1 - dEpsilon`, squared. -/
def Par (a b : V3 K) : Prop := (1 - 1 / 1000) ^ 2 * (m2 a * m2 b) < dot a b ^ 2

variable {K} in
instance (a b : V3 K) : Decidable (Par a b) := inferInstanceAs (Decidable (_ < _))

variable {K} in
/-- `IsCoplanarTriTri` with squared comparisons. -/
def ttS (t1 t2 : Tri K) : Bool :=
  let d := farthestS (pairs t1.verts t2.verts)
  decide (Par (triCross t1) (triCross t2)) &&
    (decide (¬ Steep d (triCross t1)) || decide (¬ Steep d (triCross t2)))

variable {K} in
/-- `IsCoplanarTriPlane` with squared comparisons. -/
def tpS (t : Tri K) (q : Quad K) (n : V3 K) : Bool :=
  decide (Par (triCross t) n) && decide (¬ Steep (farthestS (pairs t.verts q.verts)) n)

/-- The operations of the code with squared comparisons and normals that are not normalised. -/
def sq : Ops K where
  dir := dirS
  edge := edgeS
  cop := tpS
  tt := ttS
  big t := decide (normSq (cross (t.v1 - t.v0) (t.v2 - t.v0)) > 4 * (1 / 10000) ^ 2)

end squared

/-! ### Both give the same -/

theorem normSq_nonneg {K : Type} [Field K] [LinearOrder K] [IsStrictOrderedRing K] (v : V3 K) :
    0 ≤ normSq v := by
  simp only [normSq, dot]; nlinarith [mul_self_nonneg v.x, mul_self_nonneg v.y, mul_self_nonneg v.z]

theorem m2_pos {K : Type} [Field K] [LinearOrder K] [IsStrictOrderedRing K] (v : V3 K) : 0 < m2 v :=
  lt_of_lt_of_le (by positivity) (le_max_right _ _)

theorem kEps_pos : 0 < kEps := by norm_num [kEps]

theorem max_pos (v : V3 ℝ) : 0 < max (norm3 v) kEps := lt_of_lt_of_le kEps_pos (le_max_right _ _)

theorem max_sq (v : V3 ℝ) : max (norm3 v) kEps ^ 2 = m2 v := by
  have h1 : norm3 v ^ 2 = normSq v := Real.sq_sqrt (normSq_nonneg v)
  have h0 : 0 ≤ norm3 v := Real.sqrt_nonneg _
  unfold m2
  rw [← h1]
  rcases le_total (norm3 v) kEps with h | h
  · rw [max_eq_right h, max_eq_right, kEps]
    have : kEps = 1 / 100000000 := rfl
    rw [← this]; exact pow_le_pow_left₀ h0 h 2
  · rw [max_eq_left h, max_eq_left]
    have : kEps = 1 / 100000000 := rfl
    rw [← this]; exact pow_le_pow_left₀ kEps_pos.le h 2

theorem norm3_gt (c : V3 ℝ) : norm3 c > -1 := lt_of_lt_of_le (by norm_num) (Real.sqrt_nonneg _)

theorem normalStep_eq (c n : V3 ℝ) (e : V3 ℝ × V3 ℝ) :
    normalStep c n e = unit (cross (e.1 - c) (e.2 - c)) := by
  rw [normalStep, if_pos (norm3_gt _), getNormal]

/-- `TriNormal` always is the normal of the last pair of vertices: `max_dist` is not updated. -/
theorem triNormal_eq (t : Tri ℝ) : triNormal t = unit (triCross t) := by
  simp only [triNormal, triPairs, List.foldl_cons, List.foldl_nil, normalStep_eq, triCross]

/-- `PlaneNormal` always is the normal of the last pair of vertices. -/
theorem planeNormal_eq (q : Quad ℝ) : planeNormal q = unit (planeCross q) := by
  simp only [planeNormal, quadPairs, List.foldl_cons, List.foldl_nil, normalStep_eq, planeCross]

theorem norm3_neg (v : V3 ℝ) : norm3 ((-1 : ℝ) • v) = norm3 v := by
  simp only [norm3, normSq_smul]; norm_num

theorem unit_neg (v : V3 ℝ) : unit ((-1 : ℝ) • v) = (-1 : ℝ) • unit v := by
  rw [unit, norm3_neg, unit, smul_smul, smul_smul, mul_comm]

theorem planeDir_eq (q : Quad ℝ) (c : V3 ℝ) : planeDir q c = unit (dirS q c) := by
  have hp := inv_pos.mpr (max_pos (planeCross q))
  have hd : dot (c - planeCenter q) (unit (planeCross q)) < 0
      ↔ dot (c - planeCenter q) (planeCross q) < 0 := by
    rw [unit, dot_smul]
    constructor
    · intro h; by_contra h'; push Not at h'; nlinarith [mul_nonneg hp.le h']
    · intro h; exact mul_neg_of_pos_of_neg hp h
  unfold planeDir direct dirS
  rw [planeNormal_eq]
  by_cases h : dot (c - planeCenter q) (planeCross q) < 0
  · rw [if_pos h, if_pos (hd.2 h), unit_neg]
  · rw [if_neg h, if_neg (fun h' => h (hd.1 h'))]

theorem abs_dot_unit (a b : V3 ℝ) :
    |dot (unit a) (unit b)| = |dot a b| / (max (norm3 a) kEps * max (norm3 b) kEps) := by
  have ha := max_pos a
  have hb := max_pos b
  rw [unit, unit, smul_dot, dot_smul, abs_mul, abs_mul, abs_of_pos (inv_pos.mpr ha),
    abs_of_pos (inv_pos.mpr hb)]
  field_simp

theorem le_abs_dot (e : ℝ) (he : 0 ≤ e) (a b : V3 ℝ) :
    e ≤ |dot (unit a) (unit b)| ↔ e ^ 2 * (m2 a * m2 b) ≤ dot a b ^ 2 := by
  have ha := max_pos a
  have hb := max_pos b
  rw [abs_dot_unit, le_div_iff₀ (mul_pos ha hb), ← max_sq, ← max_sq, ← mul_pow, ← mul_pow,
    sq_le_sq, abs_of_nonneg (mul_nonneg he (mul_pos ha hb).le)]

theorem steep_iff (a b : V3 ℝ) : dEps ≤ |dot (unit a) (unit b)| ↔ Steep a b := by
  rw [le_abs_dot _ (by norm_num [dEps]), dEps]; rfl

theorem par_iff (a b : V3 ℝ) : |dot (unit a) (unit b)| > 1 - dEps ↔ Par a b := by
  have ha := max_pos a
  have hb := max_pos b
  rw [gt_iff_lt, abs_dot_unit, lt_div_iff₀ (mul_pos ha hb), Par, ← max_sq, ← max_sq, ← mul_pow,
    ← mul_pow, sq_lt_sq, abs_of_nonneg (mul_nonneg (by norm_num) (mul_pos ha hb).le), dEps]

/-- What is compared in `ArgMaxVerts` and what is compared with squares. -/
def Sim (s s' : V3 ℝ × V3 ℝ × ℝ) : Prop :=
  s.1 = s'.1 ∧ s.2.1 = s'.2.1 ∧ ((s.2.2 = -1 ∧ s'.2.2 = -1) ∨ (0 ≤ s'.2.2 ∧ s.2.2 = √s'.2.2))

theorem sim_step {s s' : V3 ℝ × V3 ℝ × ℝ} (h : Sim s s') (e : V3 ℝ × V3 ℝ) :
    Sim (argStep s e) (argStepS s' e) := by
  obtain ⟨h1, h2, h3⟩ := h
  have hn := normSq_nonneg (e.1 - e.2)
  have hk : norm3 (e.1 - e.2) > s.2.2 ↔ normSq (e.1 - e.2) > s'.2.2 := by
    rcases h3 with ⟨a, b⟩ | ⟨a, b⟩
    · rw [a, b]; exact ⟨fun _ => by linarith, fun _ => norm3_gt _⟩
    · rw [b, norm3]; exact Real.sqrt_lt_sqrt_iff a
  unfold argStep argStepS
  by_cases hc : normSq (e.1 - e.2) > s'.2.2
  · rw [if_pos hc, if_pos (hk.2 hc)]
    exact ⟨rfl, rfl, Or.inr ⟨hn, rfl⟩⟩
  · rw [if_neg hc, if_neg (fun h' => hc (hk.1 h'))]
    exact ⟨h1, h2, h3⟩

theorem sim_fold (l : List (V3 ℝ × V3 ℝ)) {s s' : V3 ℝ × V3 ℝ × ℝ} (h : Sim s s') :
    Sim (l.foldl argStep s) (l.foldl argStepS s') := by
  induction l generalizing s s' with
  | nil => exact h
  | cons e l ih => exact ih (sim_step h e)

theorem farthest_eq (l : List (V3 ℝ × V3 ℝ)) : farthest l = farthestS l := by
  have h := sim_fold l (s := (0, 0, -1)) (s' := (0, 0, -1)) ⟨rfl, rfl, Or.inl ⟨rfl, rfl⟩⟩
  rw [farthest, farthestS, h.1, h.2.1]

theorem crossing_smul (q : Quad ℝ) (k : ℝ) (hk : k ≠ 0) (n p0 p1 : V3 ℝ) :
    crossing q (k • n) p0 p1 = crossing q n p0 p1 := by
  simp only [crossing, dot_smul]
  congr 2
  rw [show -1 * (k * dot (p0 - planeCenter q) n) = k * (-1 * dot (p0 - planeCenter q) n) by ring,
    mul_div_mul_left _ _ hk]

theorem planeEdge_eq (q : Quad ℝ) (n p0 p1 : V3 ℝ) :
    planeEdge q (unit n) p0 p1 = edgeS q n p0 p1 := by
  unfold planeEdge edgeS
  by_cases h : Steep (p1 - p0) n
  · rw [if_pos h, if_pos ((steep_iff _ _).2 h), unit, crossing_smul _ _ (inv_pos.mpr (max_pos n)).ne']
  · rw [if_neg h, if_neg (fun h' => h ((steep_iff _ _).1 h'))]

theorem tp_eq (t : Tri ℝ) (q : Quad ℝ) (n : V3 ℝ) : coplanarTP t q (unit n) = tpS t q n := by
  unfold coplanarTP tpS
  rw [triNormal_eq, farthest_eq]
  congr 1
  · exact decide_eq_decide.2 (par_iff _ _)
  · exact decide_eq_decide.2 (by rw [← not_le]; exact not_congr (steep_iff _ _))

theorem tt_eq (t1 t2 : Tri ℝ) : coplanarTT t1 t2 = ttS t1 t2 := by
  unfold coplanarTT ttS
  rw [triNormal_eq, triNormal_eq, farthest_eq]
  dsimp only
  congr 1
  · exact decide_eq_decide.2 (par_iff _ _)
  · congr 1
    · exact decide_eq_decide.2 (by rw [← not_le]; exact not_congr (steep_iff _ _))
    · exact decide_eq_decide.2 (by rw [← not_le]; exact not_congr (steep_iff _ _))

theorem big_eq (t : Tri ℝ) : ops.big t = (sq ℝ).big t := by
  refine decide_eq_decide.2 ?_
  have h0 := normSq_nonneg (cross (t.v1 - t.v0) (t.v2 - t.v0))
  rw [faceArea, norm3, aEps, gt_iff_lt, lt_div_iff₀ (by norm_num), Real.lt_sqrt (by norm_num)]
  norm_num

theorem inside_eq (q : Quad ℝ) (n p : V3 ℝ) : isInside q (unit n) p = isInside q n p := by
  refine decide_eq_decide.2 ?_
  have hp := inv_pos.mpr (max_pos n)
  rw [height, height, unit, dot_smul]
  constructor
  · intro h; by_contra h'; push Not at h'; nlinarith [mul_neg_of_pos_of_neg hp h']
  · intro h; exact mul_nonneg hp.le h

theorem clip_eq (q : Quad ℝ) (n : V3 ℝ) (t : Tri ℝ) : clip ops q (unit n) t = clip (sq ℝ) q n t := by
  unfold clip
  have h1 : ops.cop t q (unit n) = (sq ℝ).cop t q n := tp_eq t q n
  have h2 : isInside q (unit n) = isInside q n := funext (inside_eq q n)
  have h3 : ops.edge q (unit n) = (sq ℝ).edge q n := funext fun a => funext (planeEdge_eq q n a)
  rw [h1, h2, h3]

theorem boxIntersections_eq (l : List (Tri ℝ)) (ps : List (Quad ℝ)) (c : V3 ℝ) :
    boxIntersections ops l ps c = boxIntersections (sq ℝ) l ps c := by
  have h : cut ops c = cut (sq ℝ) c := by
    funext l q
    have h1 : ops.dir q c = unit ((sq ℝ).dir q c) := planeDir_eq q c
    have h2 : clip ops q (unit ((sq ℝ).dir q c)) = clip (sq ℝ) q ((sq ℝ).dir q c) :=
      funext (clip_eq q _)
    rw [cut, cut, h1, h2]
  rw [boxIntersections, boxIntersections, h]

theorem keep_eq (l1 l2 : List (Tri ℝ)) : keep ops l1 l2 = keep (sq ℝ) l1 l2 := by
  have h : ∀ a b, ops.tt a b = (sq ℝ).tt a b := tt_eq
  unfold keep
  simp only [h, big_eq]

/-- **No square root matters.**  The volume and the IoU of the code are those computed with squared
comparisons, hence rational functions of the coordinates. -/
theorem overlap_eq (b1 b2 : Box ℝ) : overlap ops b1 b2 = overlap (sq ℝ) b1 b2 := by
  simp only [overlap, shape, boxIntersections_eq, keep_eq]

/-! ### Rational boxes -/

/-- A vector with rational coordinates. -/
def vr (v : V3 ℚ) : V3 ℝ := ⟨v.x, v.y, v.z⟩
/-- A triangle with rational coordinates. -/
def tr (t : Tri ℚ) : Tri ℝ := ⟨vr t.v0, vr t.v1, vr t.v2⟩
/-- A plane with rational coordinates. -/
def qr (q : Quad ℚ) : Quad ℝ := ⟨vr q.v0, vr q.v1, vr q.v2, vr q.v3⟩
/-- A box with rational coordinates. -/
def br (b : Box ℚ) : Box ℝ := fun i => vr (b i)

theorem vr_add (a b : V3 ℚ) : vr (a + b) = vr a + vr b := by ext <;> simp [vr]
theorem vr_sub (a b : V3 ℚ) : vr (a - b) = vr a - vr b := by ext <;> simp [vr]
theorem vr_smul (k : ℚ) (a : V3 ℚ) : vr (k • a) = (k : ℝ) • vr a := by ext <;> simp [vr]
theorem vr_zero : vr 0 = 0 := by ext <;> simp [vr]
theorem vr_cross (a b : V3 ℚ) : vr (cross a b) = cross (vr a) (vr b) := by
  ext <;> simp [vr, cross]
theorem vr_dot (a b : V3 ℚ) : ((dot a b : ℚ) : ℝ) = dot (vr a) (vr b) := by simp [vr, dot]
theorem vr_normSq (a : V3 ℚ) : ((normSq a : ℚ) : ℝ) = normSq (vr a) := vr_dot a a
theorem vr_m2 (a : V3 ℚ) : ((m2 a : ℚ) : ℝ) = m2 (vr a) := by
  simp only [m2, Rat.cast_max, vr_normSq]; norm_num

theorem triCenter_tr (t : Tri ℚ) : triCenter (tr t) = vr (triCenter t) := by
  simp only [triCenter, tr, vr_smul, vr_add]; norm_num
theorem planeCenter_qr (q : Quad ℚ) : planeCenter (qr q) = vr (planeCenter q) := by
  simp only [planeCenter, qr, vr_smul, vr_add]; norm_num
theorem boxCenter_br (b : Box ℚ) : boxCenter (br b) = vr (boxCenter b) := by
  simp only [boxCenter, br, vr_smul, vr_add]; norm_num

theorem steep_vr (d n : V3 ℚ) : Steep (vr d) (vr n) ↔ Steep d n := by
  unfold Steep
  rw [← vr_m2, ← vr_m2, ← vr_dot]
  have : ((1 / 1000 : ℝ)) = ((1 / 1000 : ℚ) : ℝ) := by norm_num
  rw [this]; norm_cast
theorem par_vr (d n : V3 ℚ) : Par (vr d) (vr n) ↔ Par d n := by
  unfold Par
  rw [← vr_m2, ← vr_m2, ← vr_dot]
  have : ((1 - 1 / 1000 : ℝ)) = ((1 - 1 / 1000 : ℚ) : ℝ) := by norm_num
  rw [this]; norm_cast

theorem triCross_tr (t : Tri ℚ) : triCross (tr t) = vr (triCross t) := by
  rw [triCross, triCross, triCenter_tr, vr_cross, vr_sub, vr_sub]; rfl
theorem planeCross_qr (q : Quad ℚ) : planeCross (qr q) = vr (planeCross q) := by
  rw [planeCross, planeCross, planeCenter_qr, vr_cross, vr_sub, vr_sub]; rfl

theorem dirS_qr (q : Quad ℚ) (c : V3 ℚ) : dirS (qr q) (vr c) = vr (dirS q c) := by
  unfold dirS
  rw [planeCenter_qr, planeCross_qr, ← vr_sub, ← vr_dot]
  by_cases h : dot (c - planeCenter q) (planeCross q) < 0
  · rw [if_pos h, if_pos (by exact_mod_cast h), vr_smul]; norm_num
  · rw [if_neg h, if_neg (by exact_mod_cast h)]

theorem crossing_vr (q : Quad ℚ) (n a b : V3 ℚ) :
    crossing (qr q) (vr n) (vr a) (vr b) = vr (crossing q n a b) := by
  simp only [crossing, planeCenter_qr, ← vr_sub, ← vr_dot, vr_add, vr_smul]
  norm_cast

theorem edgeS_vr (q : Quad ℚ) (n a b : V3 ℚ) :
    edgeS (qr q) (vr n) (vr a) (vr b) = vr (edgeS q n a b) := by
  unfold edgeS
  rw [← vr_sub, crossing_vr]
  by_cases h : Steep (b - a) n
  · rw [if_pos h, if_pos ((steep_vr _ _).2 h)]
  · rw [if_neg h, if_neg (fun h' => h ((steep_vr _ _).1 h'))]
    simp only [middle, vr_smul, vr_add]; norm_num

theorem argStepS_vr (s : V3 ℚ × V3 ℚ × ℚ) (e : V3 ℚ × V3 ℚ) :
    argStepS (vr s.1, vr s.2.1, (s.2.2 : ℝ)) (vr e.1, vr e.2)
      = (vr (argStepS s e).1, vr (argStepS s e).2.1, ((argStepS s e).2.2 : ℝ)) := by
  unfold argStepS
  simp only [← vr_sub, ← vr_normSq]
  by_cases h : normSq (e.1 - e.2) > s.2.2
  · rw [if_pos h, if_pos (by exact_mod_cast h)]
  · rw [if_neg h, if_neg (by exact_mod_cast h)]

theorem foldArg_vr (l : List (V3 ℚ × V3 ℚ)) (s : V3 ℚ × V3 ℚ × ℚ) :
    (l.map fun e => (vr e.1, vr e.2)).foldl argStepS (vr s.1, vr s.2.1, (s.2.2 : ℝ))
      = (vr (l.foldl argStepS s).1, vr (l.foldl argStepS s).2.1, ((l.foldl argStepS s).2.2 : ℝ)) := by
  induction l generalizing s with
  | nil => rfl
  | cons e l ih => rw [List.map_cons, List.foldl_cons, argStepS_vr, ih]; rfl

theorem farthestS_vr (l : List (V3 ℚ × V3 ℚ)) :
    farthestS (l.map fun e => (vr e.1, vr e.2)) = vr (farthestS l) := by
  have h := foldArg_vr l (0, 0, -1)
  simp only [vr_zero, Rat.cast_neg, Rat.cast_one] at h
  rw [farthestS, h, farthestS, vr_sub]

theorem pairs_vr (l1 l2 : List (V3 ℚ)) :
    pairs (l1.map vr) (l2.map vr) = (pairs l1 l2).map fun e => (vr e.1, vr e.2) := by
  simp only [pairs, List.map_flatMap, List.flatMap_map, List.map_map]
  rfl

theorem tpS_vr (t : Tri ℚ) (q : Quad ℚ) (n : V3 ℚ) : tpS (tr t) (qr q) (vr n) = tpS t q n := by
  have h : pairs (tr t).verts (qr q).verts = (pairs t.verts q.verts).map fun e => (vr e.1, vr e.2) :=
    pairs_vr t.verts q.verts
  unfold tpS
  rw [h, farthestS_vr, triCross_tr]
  congr 1
  · exact decide_eq_decide.2 (par_vr _ _)
  · exact decide_eq_decide.2 (not_congr (steep_vr _ _))

theorem ttS_vr (t1 t2 : Tri ℚ) : ttS (tr t1) (tr t2) = ttS t1 t2 := by
  have h : pairs (tr t1).verts (tr t2).verts
      = (pairs t1.verts t2.verts).map fun e => (vr e.1, vr e.2) :=
    pairs_vr t1.verts t2.verts
  unfold ttS
  rw [h, farthestS_vr, triCross_tr, triCross_tr]
  dsimp only
  congr 1
  · exact decide_eq_decide.2 (par_vr _ _)
  · congr 1
    · exact decide_eq_decide.2 (not_congr (steep_vr _ _))
    · exact decide_eq_decide.2 (not_congr (steep_vr _ _))

theorem big_vr (t : Tri ℚ) : (sq ℝ).big (tr t) = (sq ℚ).big t := by
  refine decide_eq_decide.2 ?_
  have : normSq (cross ((tr t).v1 - (tr t).v0) ((tr t).v2 - (tr t).v0))
      = ((normSq (cross (t.v1 - t.v0) (t.v2 - t.v0)) : ℚ) : ℝ) := by
    rw [vr_normSq, vr_cross, vr_sub, vr_sub]; rfl
  rw [this]
  have h4 : (4 * (1 / 10000) ^ 2 : ℝ) = ((4 * (1 / 10000) ^ 2 : ℚ) : ℝ) := by norm_num
  rw [h4]; norm_cast

theorem inside_vr (q : Quad ℚ) (n p : V3 ℚ) : isInside (qr q) (vr n) (vr p) = isInside q n p := by
  refine decide_eq_decide.2 ?_
  rw [height, height, planeCenter_qr, ← vr_sub, ← vr_dot]; norm_cast

theorem clip_vr (q : Quad ℚ) (n : V3 ℚ) (t : Tri ℚ) :
    clip (sq ℝ) (qr q) (vr n) (tr t) = (clip (sq ℚ) q n t).map tr := by
  have h1 : (sq ℝ).cop (tr t) (qr q) (vr n) = (sq ℚ).cop t q n := tpS_vr t q n
  have h3 : ∀ a b, (sq ℝ).edge (qr q) (vr n) (vr a) (vr b) = vr ((sq ℚ).edge q n a b) :=
    edgeS_vr q n
  unfold clip clipWith
  rw [h1]
  have e0 : (tr t).v0 = vr t.v0 := rfl
  have e1 : (tr t).v1 = vr t.v1 := rfl
  have e2 : (tr t).v2 = vr t.v2 := rfl
  rw [e0, e1, e2, inside_vr, inside_vr, inside_vr]
  cases (sq ℚ).cop t q n
  · cases isInside q n t.v0 <;> cases isInside q n t.v1 <;> cases isInside q n t.v2 <;>
      simp [oneOut, twoOut, h3, tr]
  · simp

theorem cut_vr (c : V3 ℚ) (l : List (Tri ℚ)) (q : Quad ℚ) :
    cut (sq ℝ) (vr c) (l.map tr) (qr q) = (cut (sq ℚ) c l q).map tr := by
  have h : (sq ℝ).dir (qr q) (vr c) = vr ((sq ℚ).dir q c) := dirS_qr q c
  rw [cut, cut, h, List.flatMap_map, List.map_flatMap]
  simp only [clip_vr]

theorem boxIntersections_vr (l : List (Tri ℚ)) (ps : List (Quad ℚ)) (c : V3 ℚ) :
    boxIntersections (sq ℝ) (l.map tr) (ps.map qr) (vr c)
      = (boxIntersections (sq ℚ) l ps c).map tr := by
  unfold boxIntersections
  induction ps generalizing l with
  | nil => rfl
  | cons q ps ih => rw [List.map_cons, List.foldl_cons, cut_vr, ih]; rfl

theorem keep_vr (l1 l2 : List (Tri ℚ)) :
    keep (sq ℝ) (l1.map tr) (l2.map tr) = (keep (sq ℚ) l1 l2).map tr := by
  have h : ∀ a b, (sq ℝ).tt (tr a) (tr b) = (sq ℚ).tt a b := ttS_vr
  unfold keep
  rw [List.filter_map]
  congr 1
  refine List.filter_congr fun b _ => ?_
  have h2 : ∀ b1, ((sq ℝ).tt (tr b1) (tr b) && (sq ℝ).big (tr b1))
      = ((sq ℚ).tt b1 b && (sq ℚ).big b1) := fun b1 => by rw [h, big_vr]
  simp only [Function.comp_def, List.any_map, h2]

theorem boxTris_br (b : Box ℚ) : boxTris (br b) = (boxTris b).map tr := by
  simp only [boxTris, List.map_map]; rfl
theorem boxPlanes_br (b : Box ℚ) : boxPlanes (br b) = (boxPlanes b).map qr := by
  simp only [boxPlanes, List.map_map]; rfl

theorem shape_br (b1 b2 : Box ℚ) : shape (sq ℝ) (br b1) (br b2) = (shape (sq ℚ) b1 b2).map tr := by
  simp only [shape, boxTris_br, boxPlanes_br, boxCenter_br, boxIntersections_vr, keep_vr,
    List.map_append]

theorem tet_tr (c : V3 ℚ) (t : Tri ℚ) : tet (vr c) (tr t) = (tet c t : ℚ) := by
  have : dot ((tr t).v0 - vr c) (cross ((tr t).v1 - vr c) ((tr t).v2 - vr c))
      = ((dot (t.v0 - c) (cross (t.v1 - c) (t.v2 - c)) : ℚ) : ℝ) := by
    rw [vr_dot, vr_cross, vr_sub, vr_sub, vr_sub]; rfl
  rw [tet, this, tet]; push_cast; rfl

theorem boxVolume_tr (l : List (Tri ℚ)) (c : V3 ℚ) :
    boxVolume (l.map tr) (vr c) = (boxVolume l c : ℚ) := by
  unfold boxVolume
  induction l with
  | nil => simp
  | cons t l ih => simp only [List.map_cons, List.sum_cons, ih, tet_tr, Rat.cast_add]

theorem vr_sum (l : List (V3 ℚ)) : vr l.sum = (l.map vr).sum := by
  induction l with
  | nil => exact vr_zero
  | cons a l ih => rw [List.sum_cons, vr_add, ih, List.map_cons, List.sum_cons]

theorem polyCenter_tr (l : List (Tri ℚ)) : polyCenter (l.map tr) = vr (polyCenter l) := by
  rw [polyCenter, polyCenter, vr_smul, vr_sum, List.length_map, List.map_map, List.map_map]
  congr 2
  · push_cast; rfl
  · refine List.map_congr_left fun t _ => triCenter_tr t

theorem shapeVol_tr (l : List (Tri ℚ)) : shapeVol (l.map tr) = (shapeVol l : ℚ) := by
  unfold shapeVol
  cases l with
  | nil => simp
  | cons a l => rw [polyCenter_tr, boxVolume_tr]; simp

theorem vol1_br (b : Box ℚ) : vol1 (br b) = (vol1 b : ℚ) := by
  rw [vol1, boxTris_br, boxCenter_br, boxVolume_tr]; rfl

/-- **Boxes with rational coordinates can be computed.**  The result of the code for such boxes is the
rational number that `overlap (sq ℚ)` evaluates to. -/
theorem overlap_rat (b1 b2 : Box ℚ) :
    overlap ops (br b1) (br b2)
      = (((overlap (sq ℚ) b1 b2).1 : ℝ), ((overlap (sq ℚ) b1 b2).2 : ℝ)) := by
  rw [overlap_eq]
  simp only [overlap, shape_br, shapeVol_tr, vol1_br, shapeIou]
  cases shape (sq ℚ) b1 b2 with
  | nil => simp
  | cons a l => simp

/-- The corners of the axis-aligned box `[lo, hi]` in the documented order, `iou_box3d.py:140-149`. -/
def aabb {K : Type} (lo hi : V3 K) : Box K :=
  ![⟨lo.x, lo.y, lo.z⟩, ⟨hi.x, lo.y, lo.z⟩, ⟨hi.x, hi.y, lo.z⟩, ⟨lo.x, hi.y, lo.z⟩,
    ⟨lo.x, lo.y, hi.z⟩, ⟨hi.x, lo.y, hi.z⟩, ⟨hi.x, hi.y, hi.z⟩, ⟨lo.x, hi.y, hi.z⟩]

example : overlap (sq ℚ) (aabb ⟨0, 0, 0⟩ ⟨2, 2, 2⟩) (aabb ⟨1, 1, 1⟩ ⟨3, 3, 3⟩) = (1, 1 / 15) := by
  decide +kernel

example : overlap (sq ℚ) (aabb ⟨0, 0, 0⟩ ⟨10, 10, 1/200⟩) (aabb ⟨0, 0, 1/100⟩ ⟨10, 10, 3/200⟩)
    = (1/6, 1 / 5) := by
  decide +kernel

/-- **Small boxes are counted twice.**  Two cubes of side 0.02 that overlap by a quarter of their
length: the pieces of their common planes have an area of at most `aEpsilon`, so that the second copy is
not removed, and the volume comes out as 5/3 of the true one, the IoU as 5/19 instead of 1/7. -/
theorem small_boxes : overlap ops (br (aabb ⟨0, 0, 0⟩ ⟨1/50, 1/50, 1/50⟩))
    (br (aabb ⟨3/200, 0, 0⟩ ⟨7/200, 1/50, 1/50⟩))
      = (5 / 3 * ((1/50 - 3/200) * (1/50) * (1/50)), 5 / 19) := by
  have h : overlap (sq ℚ) (aabb ⟨0, 0, 0⟩ ⟨1/50, 1/50, 1/50⟩)
      (aabb ⟨3/200, 0, 0⟩ ⟨7/200, 1/50, 1/50⟩) = (1 / 300000, 5 / 19) := by decide +kernel
  rw [overlap_rat, h]; norm_num

/-- **Flat boxes that do not touch overlap.**  Two plates of 10 x 10 x 0.005, one 0.005 above the other:
the distance of the plates is small compared with their diagonal, so that all four large faces are taken
for coplanar, and the code reports a third of the volume of a plate and an IoU of 0.2. -/
theorem flat_boxes : overlap ops (br (aabb ⟨0, 0, 0⟩ ⟨10, 10, 1/200⟩))
    (br (aabb ⟨0, 0, 1/100⟩ ⟨10, 10, 3/200⟩)) = (1 / 3 * (10 * 10 * (1/200)), 1 / 5) := by
  have h : overlap (sq ℚ) (aabb ⟨0, 0, 0⟩ ⟨10, 10, 1/200⟩) (aabb ⟨0, 0, 1/100⟩ ⟨10, 10, 3/200⟩)
      = (1 / 6, 1 / 5) := by decide +kernel
  rw [overlap_rat, h]; norm_num

end P3D.IoU
