/-
The geometry of the CUDA kernels, transcribed from the device code, compared with the geometry of the C++ code modelled in `Verif.Geometry`.

* `csrc/utils/geometry_utils.cuh:37-67` (edge function), `76-161` (barycentric coordinates), `172-233` (perspective correction), `246-325` (clipping), `340-385` (distance to a segment),
  `397-462` (distance to a triangle in the plane), `476-570` (area, barycentric coordinates in space, inside test), `580-652` (distance to a segment in space), `671-790` (distance to a triangle)
* `csrc/utils/float_math.cuh:23-156` (vectors, cross product, normalisation and their gradients)

Numbers are exact; `__saturatef` and `fmaxf` on numbers are clamp and maximum.  `kEpsilon` and `vEpsilon` are `1e-8` in both files.  Not modelled: floats (in particular NaN from a division by
zero, which `__saturatef` turns into zero), fused operations.
-/
import Verif.Geometry
import Verif.DistanceProps
import Mathlib.Analysis.SpecialFunctions.Pow.Real
import Mathlib.Tactic.Ring
import Mathlib.Tactic.Linarith
import Mathlib.Tactic.NormNum

set_option linter.unusedSectionVars false

namespace P3D.GeomGpu

open P3D.Geom

section field
variable {K : Type*} [Field K]

/-- `EdgeFunctionForward`, `geometry_utils.cuh:37-41`. -/
def edge (p v0 v1 : V2 K) : K := (p.x - v0.x) * (v1.y - v0.y) - (p.y - v0.y) * (v1.x - v0.x)

/-- `EdgeFunctionBackward`, `geometry_utils.cuh:54-65`. -/
def edgeBackward (p v0 v1 : V2 K) (g : K) : V2 K × V2 K × V2 K :=
  (g • ⟨v1.y - v0.y, v0.x - v1.x⟩, g • ⟨p.y - v1.y, v1.x - p.x⟩, g • ⟨v0.y - p.y, p.x - v0.x⟩)

/-- `BarycentricCoordsForward`, `geometry_utils.cuh:76-87`. -/
def bary (p v0 v1 v2 : V2 K) : V3 K :=
  let area := edge v2 v0 v1 + kEps
  ⟨edge p v1 v2 / area, edge p v2 v0 / area, edge p v0 v1 / area⟩

/-- `BarycentricCoordsBackward`, `geometry_utils.cuh:101-161`: gradients for `p`, `v0`, `v1`, `v2`. -/
def baryBackward (p v0 v1 v2 : V2 K) (g : V3 K) : V2 K × V2 K × V2 K × V2 K :=
  let area := edge v2 v0 v1 + kEps
  let area2 := area ^ 2
  let e0 := edge p v1 v2
  let e1 := edge p v2 v0
  let e2 := edge p v0 v1
  let de0 := edgeBackward p v1 v2 (g.x * (1 / area))
  let da0 := edgeBackward v2 v0 v1 (g.x * (-e0 / area2))
  let de1 := edgeBackward p v2 v0 (g.y * (1 / area))
  let da1 := edgeBackward v2 v0 v1 (g.y * (-e1 / area2))
  let de2 := edgeBackward p v0 v1 (g.z * (1 / area))
  let da2 := edgeBackward v2 v0 v1 (g.z * (-e2 / area2))
  let w0 := (de0.1, da0.2.1, de0.2.1 + da0.2.2, de0.2.2 + da0.1)
  let w1 := (de1.1, de1.2.2 + da1.2.1, da1.2.2, de1.2.1 + da1.1)
  let w2 := (de2.1, de2.2.1 + da2.2.1, de2.2.2 + da2.2.2, da2.1)
  (w0.1 + w1.1 + w2.1, w0.2.1 + w1.2.1 + w2.2.1, w0.2.2.1 + w1.2.2.1 + w2.2.2.1, w0.2.2.2 + w1.2.2.2 + w2.2.2.2)

variable [LinearOrder K]

/-- `BarycentricPerspectiveCorrectionForward`, `geometry_utils.cuh:172-185`. -/
def perspCorrect (b : V3 K) (z0 z1 z2 : K) : V3 K :=
  let w0 := b.x * z1 * z2
  let w1 := z0 * b.y * z2
  let w2 := z0 * z1 * b.z
  let denom := max (w0 + w1 + w2) kEps
  ⟨w0 / denom, w1 / denom, w2 / denom⟩

/-- `BarycentricPerspectiveCorrectionBackward`, `geometry_utils.cuh:200-233`. -/
def perspCorrectBackward (b : V3 K) (z0 z1 z2 : K) (g : V3 K) : V3 K × K × K × K :=
  let w0 := b.x * z1 * z2
  let w1 := z0 * b.y * z2
  let w2 := z0 * z1 * b.z
  let denom := max (w0 + w1 + w2) kEps
  let top := -w0 * g.x - w1 * g.y - w2 * g.z
  let gd := top / (denom * denom)
  let g0 := gd + g.x / denom
  let g1 := gd + g.y / denom
  let g2 := gd + g.z / denom
  (⟨g0 * z1 * z2, g1 * z0 * z2, g2 * z0 * z1⟩,
   g1 * b.y * z2 + g2 * b.z * z1, g0 * b.x * z2 + g2 * b.z * z0, g0 * b.x * z1 + g1 * b.y * z0)

/-- `BarycentricClipForward`, `geometry_utils.cuh:246-260`. -/
def clip (b : V3 K) : V3 K :=
  let w : V3 K := ⟨max b.x 0, max b.y 0, max b.z 0⟩
  let s := max (w.x + w.y + w.z) (1 / 10 ^ 5)
  ⟨w.x / s, w.y / s, w.z / s⟩

/-- `BarycentricClipBackward`, `geometry_utils.cuh:273-325`. -/
def clipBackward (b g : V3 K) : V3 K :=
  let w : V3 K := ⟨max b.x 0, max b.y 0, max b.z 0⟩
  let s0 := w.x + w.y + w.z
  let clipped := s0 < 1 / 10 ^ 5
  let gsc : K := if clipped then 0 else 1
  let s := if clipped then 1 / 10 ^ 5 else s0
  let gc : V3 K := ⟨if b.x < 0 then 0 else 1, if b.y < 0 then 0 else 1, if b.z < 0 then 0 else 1⟩
  let gs : V3 K := ⟨-w.x / s ^ 2 * gsc, -w.y / s ^ 2 * gsc, -w.z / s ^ 2 * gsc⟩
  ⟨gc.x * (g.x * (1 / s + gs.x) + g.y * gs.y + g.z * gs.z),
   gc.y * (g.y * (1 / s + gs.y) + g.x * gs.x + g.z * gs.z),
   gc.z * (g.z * (1 / s + gs.z) + g.x * gs.x + g.y * gs.y)⟩

/-- `__saturatef`: clamp to `[0, 1]`. -/
def saturate (t : K) : K := max 0 (min t 1)

/-- `PointLineDistanceForward`, `geometry_utils.cuh:340-352`. -/
def pointLine (p a b : V2 K) : K :=
  let ba := b - a
  let l2 := V2.dot ba ba
  let t := V2.dot ba (p - a) / l2
  if l2 ≤ kEps then V2.dot (p - b) (p - b)
  else
    let q := a + saturate t • ba
    let d := q - p
    V2.dot d d

/-- `PointLineDistanceBackward`, `geometry_utils.cuh:365-385`. -/
def pointLineBackward (p v0 v1 : V2 K) (g : K) : V2 K × V2 K × V2 K :=
  let d := v1 - v0
  let tt := saturate (V2.dot d (p - v0) / V2.dot d d)
  let q := (1 - tt) • v0 + tt • v1
  ((-1 * g * 2) • (q - p), (g * (1 - tt) * 2) • (q - p), (g * tt * 2) • (q - p))

/-- `PointTriangleDistanceForward`, `geometry_utils.cuh:397-408`. -/
def pointTri (p v0 v1 v2 : V2 K) : K := min (min (pointLine p v0 v1) (pointLine p v0 v2)) (pointLine p v1 v2)

/-- `PointTriangleDistanceBackward`, `geometry_utils.cuh:421-462`. -/
def pointTriBackward (p v0 v1 v2 : V2 K) (g : K) : V2 K × V2 K × V2 K × V2 K :=
  let e01 := pointLine p v0 v1
  let e02 := pointLine p v0 v2
  let e12 := pointLine p v1 v2
  if e01 ≤ e02 ∧ e01 ≤ e12 then
    let r := pointLineBackward p v0 v1 g
    (r.1, r.2.1, r.2.2, 0)
  else if e02 ≤ e01 ∧ e02 ≤ e12 then
    let r := pointLineBackward p v0 v2 g
    (r.1, r.2.1, 0, r.2.2)
  else if e12 ≤ e01 ∧ e12 ≤ e02 then
    let r := pointLineBackward p v1 v2 g
    (r.1, 0, r.2.1, r.2.2)
  else (0, 0, 0, 0)

/-- `BarycentricCoords3Forward`, `geometry_utils.cuh:505-526`. -/
def bary3 (p v0 v1 v2 : V3 K) : V3 K :=
  let p0 := v1 - v0
  let p1 := v2 - v0
  let p2 := p - v0
  let d00 := V3.dot p0 p0
  let d01 := V3.dot p0 p1
  let d11 := V3.dot p1 p1
  let d20 := V3.dot p2 p0
  let d21 := V3.dot p2 p1
  let denom := d00 * d11 - d01 * d01 + kEps
  let w1 := (d11 * d20 - d01 * d21) / denom
  let w2 := (d00 * d21 - d01 * d20) / denom
  ⟨1 - w1 - w2, w1, w2⟩

/-- `PointLine3DistanceForward`, `geometry_utils.cuh:580-596`: a short edge is its first end. -/
def pointLine3 (p v0 v1 : V3 K) : K :=
  let v1v0 := v1 - v0
  let pv0 := p - v0
  let bot := V3.dot v1v0 v1v0
  let top := V3.dot pv0 v1v0
  let tt := saturate (if bot < kEps then 0 else top / bot)
  let diff := p - (v0 + tt • v1v0)
  V3.dot diff diff

/-- `PointLine3DistanceBackward`, `geometry_utils.cuh:609-652`. -/
def pointLine3Backward (p v0 v1 : V3 K) (g : K) : V3 K × V3 K × V3 K :=
  let d := v1 - v0
  let pv0 := p - v0
  let bot := V3.dot d d
  let tt := V3.dot d pv0 / bot
  if bot < kEps then
    let gp := (g * 2) • pv0
    (gp, (-1 / 2 : K) • gp, (-1 / 2 : K) • gp)
  else if tt < 0 then
    let gp := (g * 2) • pv0
    (gp, (-1 : K) • gp, 0)
  else if tt > 1 then
    let gp := (g * 2) • (p - v1)
    (gp, 0, (-1 : K) • gp)
  else
    let base := (g * 2) • (p - (v0 + tt • d))
    let c := V3.dot base d
    (base - (bot⁻¹ * c) • d,
     (-1 + tt) • base - c • (bot⁻¹ • ((-1 : K) • d - pv0 + (2 * tt) • d)),
     (-c) • (bot⁻¹ • (pv0 - (2 * tt) • d)) - tt • base)

end field

noncomputable section real

/-- Length of a vector, `float_math.cuh:132-134`. -/
def norm (a : V3 ℝ) : ℝ := Real.sqrt (V3.dot a a)

/-- `hypot`. -/
def hypot (a b : ℝ) : ℝ := Real.sqrt (a ^ 2 + b ^ 2)

/-- `AreaOfTriangle`, `geometry_utils.cuh:476-487`. -/
def area3 (v0 v1 v2 : V3 ℝ) : ℝ :=
  let p0 := v1 - v0
  let p1 := v2 - v0
  hypot (p0.y * p1.z - p0.z * p1.y) (hypot (p0.z * p1.x - p0.x * p1.z) (p0.x * p1.y - p0.y * p1.x)) / 2

/-- `IsInsideTriangle`, `geometry_utils.cuh:547-570`. -/
def InsideTri (p v0 v1 v2 : V3 ℝ) (minArea : ℝ) : Prop :=
  ¬ area3 v0 v1 v2 < minArea ∧
    ((0 ≤ (bary3 p v0 v1 v2).x ∧ (bary3 p v0 v1 v2).x ≤ 1) ∧ (0 ≤ (bary3 p v0 v1 v2).y ∧ (bary3 p v0 v1 v2).y ≤ 1)) ∧
    (0 ≤ (bary3 p v0 v1 v2).z ∧ (bary3 p v0 v1 v2).z ≤ 1)

/-- `normalize(cross(v2 - v0, v1 - v0))`, `geometry_utils.cuh:677-679` with `float_math.cuh:112-115`, `136-138`. -/
def triNormal (v0 v1 v2 : V3 ℝ) : V3 ℝ :=
  let n := V3.cross (v2 - v0) (v1 - v0)
  ⟨n.x / (norm n + kEps), n.y / (norm n + kEps), n.z / (norm n + kEps)⟩

/-- `geometry_utils.cuh:683`, `737`. -/
def planeT (p v0 v1 v2 : V3 ℝ) : ℝ := V3.dot (v0 - p) (triNormal v0 v1 v2)

/-- The condition of `geometry_utils.cuh:689` and `748`. -/
def UsePlane (p v0 v1 v2 : V3 ℝ) (minArea : ℝ) : Prop :=
  InsideTri (p + planeT p v0 v1 v2 • triNormal v0 v1 v2) v0 v1 v2 minArea ∧ kEps < norm (V3.cross (v2 - v0) (v1 - v0))

open Classical in
/-- `PointTriangle3DistanceForward`, `geometry_utils.cuh:671-703`. -/
def pointTri3 (p v0 v1 v2 : V3 ℝ) (minArea : ℝ) : ℝ :=
  if UsePlane p v0 v1 v2 minArea then planeT p v0 v1 v2 * planeT p v0 v1 v2
  else
    let e01 := pointLine3 p v0 v1
    let e02 := pointLine3 p v0 v2
    let e12 := pointLine3 p v1 v2
    let d := if e01 > e02 then e02 else e01
    if d > e12 then e12 else d

/-- `cross_backward`, `float_math.cuh:117-130`. -/
def crossBackward (a b g : V3 ℝ) : V3 ℝ × V3 ℝ :=
  (⟨-g.y * b.z + g.z * b.y, g.x * b.z - g.z * b.x, -g.x * b.y + g.y * b.x⟩,
   ⟨g.y * a.z - g.z * a.y, -g.x * a.z + g.z * a.x, g.x * a.y - g.y * a.x⟩)

/-- `normalize_backward`, `float_math.cuh:140-156`. -/
def normalizeBackward (a g : V3 ℝ) : V3 ℝ :=
  let n := norm a + kEps
  let o : V3 ℝ := ⟨a.x / n, a.y / n, a.z / n⟩
  ⟨g.x * (1 - o.x * o.x) / n + g.y * (-o.x * o.y) / n + g.z * (-o.x * o.z) / n,
   g.x * (-o.x * o.y) / n + g.y * (1 - o.y * o.y) / n + g.z * (-o.y * o.z) / n,
   g.x * (-o.x * o.z) / n + g.y * (-o.y * o.z) / n + g.z * (1 - o.z * o.z) / n⟩

open Classical in
/-- `PointTriangle3DistanceBackward`, `geometry_utils.cuh:720-790`. -/
def pointTri3Backward (p v0 v1 v2 : V3 ℝ) (g minArea : ℝ) : V3 ℝ × V3 ℝ × V3 ℝ × V3 ℝ :=
  let nrm := triNormal v0 v1 v2
  let t := planeT p v0 v1 v2
  if UsePlane p v0 v1 v2 minArea then
    let gn := (2 * g * t) • ((v0 - p) + t • nrm)
    let gr := normalizeBackward (V3.cross (v2 - v0) (v1 - v0)) gn
    let gc := crossBackward (v2 - v0) (v1 - v0) gr
    ((-2 * g * t) • nrm, (g * 2 * t) • nrm - (gc.1 + gc.2), gc.2, gc.1)
  else
    let e01 := pointLine3 p v0 v1
    let e02 := pointLine3 p v0 v2
    let e12 := pointLine3 p v1 v2
    if e01 ≤ e02 ∧ e01 ≤ e12 then
      let r := pointLine3Backward p v0 v1 g
      (r.1, r.2.1, r.2.2, 0)
    else if e02 ≤ e01 ∧ e02 ≤ e12 then
      let r := pointLine3Backward p v0 v2 g
      (r.1, r.2.1, 0, r.2.2)
    else if e12 ≤ e01 ∧ e12 ≤ e02 then
      let r := pointLine3Backward p v1 v2 g
      (r.1, 0, r.2.1, r.2.2)
    else (0, 0, 0, 0)

end real

/-! ## The plane: both devices compute the same -/

section agree
variable {K : Type*} [Field K]

theorem edge_eq (p v0 v1 : V2 K) : edge p v0 v1 = Geom.edge p v0 v1 := rfl
theorem edgeBackward_eq (p v0 v1 : V2 K) (g : K) : edgeBackward p v0 v1 g = Geom.edgeBackward p v0 v1 g := rfl
theorem bary_eq (p v0 v1 v2 : V2 K) : bary p v0 v1 v2 = Geom.bary p v0 v1 v2 := rfl
theorem baryBackward_eq (p v0 v1 v2 : V2 K) (g : V3 K) : baryBackward p v0 v1 v2 g = Geom.baryBackward p v0 v1 v2 g := rfl

variable [LinearOrder K] [IsStrictOrderedRing K]

theorem perspCorrect_eq (b : V3 K) (z0 z1 z2 : K) : perspCorrect b z0 z1 z2 = Geom.perspCorrect b z0 z1 z2 := by
  unfold perspCorrect Geom.perspCorrect
  dsimp only
  rw [show z0 * b.y * z2 = b.y * z0 * z2 by ring, show z0 * z1 * b.z = b.z * z0 * z1 by ring]

theorem perspCorrectBackward_eq (b : V3 K) (z0 z1 z2 : K) (g : V3 K) : perspCorrectBackward b z0 z1 z2 g = Geom.perspCorrectBackward b z0 z1 z2 g := by
  unfold perspCorrectBackward Geom.perspCorrectBackward
  dsimp only
  rw [show z0 * b.y * z2 = b.y * z0 * z2 by ring, show z0 * z1 * b.z = b.z * z0 * z1 by ring]

theorem clip_eq (b : V3 K) : clip b = Geom.clip b := rfl
theorem clipBackward_eq (b g : V3 K) : clipBackward b g = Geom.clipBackward b g := rfl

theorem saturate_eq (t : K) : saturate t = clamp01 t := by
  unfold saturate clamp01
  rcases le_total t 0 with h | h
  · rw [max_eq_right h, min_eq_left (by linarith), min_eq_left zero_le_one, max_eq_left h]
  · rcases le_total t 1 with h' | h'
    · rw [min_eq_left h', max_eq_right h, max_eq_left h, min_eq_left h']
    · rw [min_eq_right h', max_eq_right zero_le_one, max_eq_left h, min_eq_right h']

theorem pointLine_eq (p a b : V2 K) : pointLine p a b = Geom.pointLine p a b := by
  unfold pointLine Geom.pointLine
  dsimp only
  rw [saturate_eq]
  split_ifs
  · rfl
  · simp only [V2.dot, V2.sub_x, V2.sub_y]
    ring

theorem pointLineBackward_eq (p v0 v1 : V2 K) (g : K) : pointLineBackward p v0 v1 g = Geom.pointLineBackward p v0 v1 g := by
  unfold pointLineBackward Geom.pointLineBackward
  dsimp only
  rw [saturate_eq]

theorem pointTri_eq (p v0 v1 v2 : V2 K) : pointTri p v0 v1 v2 = Geom.pointTri p v0 v1 v2 := by
  simp only [pointTri, Geom.pointTri, pointLine_eq]

theorem pointTriBackward_eq (p v0 v1 v2 : V2 K) (g : K) : pointTriBackward p v0 v1 v2 g = Geom.pointTriBackward p v0 v1 v2 g := by
  simp only [pointTriBackward, Geom.pointTriBackward, pointLine_eq, pointLineBackward_eq]

theorem bary3_eq (p v0 v1 v2 : V3 K) : bary3 p v0 v1 v2 = Geom.bary3 p v0 v1 v2 := rfl

theorem pointLine3Backward_eq (p v0 v1 : V3 K) (g : K) : pointLine3Backward p v0 v1 g = Geom.pointLine3Backward p v0 v1 g := rfl

/-! ## Space: the devices differ on short edges -/

/-- An edge longer than the bound: the same distance. -/
theorem pointLine3_eq {p v0 v1 : V3 K} (h : kEps < V3.dot (v1 - v0) (v1 - v0)) : pointLine3 p v0 v1 = Geom.pointLine3 p v0 v1 := by
  unfold pointLine3 Geom.pointLine3
  dsimp only
  rw [if_neg (not_lt.mpr h.le), if_neg (not_le.mpr h), saturate_eq, show V3.dot (p - v0) (v1 - v0) = V3.dot (v1 - v0) (p - v0) by simp only [V3.dot]; ring]

/-- A shorter edge: the GPU measures to the first end, the CPU to the second. -/
theorem pointLine3_short {p v0 v1 : V3 K} (h : V3.dot (v1 - v0) (v1 - v0) < kEps) :
    pointLine3 p v0 v1 = V3.dot (p - v0) (p - v0) ∧ Geom.pointLine3 p v0 v1 = V3.dot (p - v1) (p - v1) := by
  constructor
  · unfold pointLine3
    dsimp only
    rw [if_pos h, saturate_eq]
    simp [clamp01, V3.dot]
  · unfold Geom.pointLine3
    dsimp only
    rw [if_pos h.le]

/-- So the GPU distance of a short edge depends on the order of its ends, like that of the CPU, and exchanging them gives the other device's value. -/
theorem pointLine3_swap {p v0 v1 : V3 K} (h : V3.dot (v1 - v0) (v1 - v0) < kEps) : pointLine3 p v0 v1 = Geom.pointLine3 p v1 v0 := by
  have h' : V3.dot (v0 - v1) (v0 - v1) < kEps := by
    have : V3.dot (v0 - v1) (v0 - v1) = V3.dot (v1 - v0) (v1 - v0) := by
      simp only [V3.dot, V3.sub_x, V3.sub_y, V3.sub_z]
      ring
    rw [this]
    exact h
  rw [(pointLine3_short h).1, (pointLine3_short h').2]

/-- At the bound itself only the GPU projects; it returns the distance to the segment. -/
theorem pointLine3_min_gpu {p v0 v1 : V3 K} (h : kEps ≤ V3.dot (v1 - v0) (v1 - v0)) (s : K) (h0 : 0 ≤ s) (h1 : s ≤ 1) :
    pointLine3 p v0 v1 ≤ V3.dot (p - (v0 + s • (v1 - v0))) (p - (v0 + s • (v1 - v0))) := by
  have hL : (0 : K) < V3.dot (v1 - v0) (v1 - v0) := lt_of_lt_of_le kEps_pos h
  unfold pointLine3
  dsimp only
  rw [if_neg (not_lt.mpr h), saturate_eq]
  have key := clamp01_min (V3.dot (p - v0) (v1 - v0) / V3.dot (v1 - v0) (v1 - v0)) h0 h1
  set T := V3.dot (p - v0) (v1 - v0) / V3.dot (v1 - v0) (v1 - v0) with hT
  have hdot : ∀ x : K, V3.dot (p - (v0 + x • (v1 - v0))) (p - (v0 + x • (v1 - v0))) =
      V3.dot (p - v0) (p - v0) - V3.dot (v1 - v0) (v1 - v0) * T ^ 2 + V3.dot (v1 - v0) (v1 - v0) * (x - T) ^ 2 := by
    intro x
    have ht : T * V3.dot (v1 - v0) (v1 - v0) = V3.dot (p - v0) (v1 - v0) := by
      rw [hT, div_mul_cancel₀ _ (ne_of_gt hL)]
    have e : V3.dot (p - (v0 + x • (v1 - v0))) (p - (v0 + x • (v1 - v0))) =
        V3.dot (p - v0) (p - v0) - 2 * x * V3.dot (p - v0) (v1 - v0) + x ^ 2 * V3.dot (v1 - v0) (v1 - v0) := by
      simp only [V3.dot, V3.sub_x, V3.sub_y, V3.sub_z, V3.add_x, V3.add_y, V3.add_z, V3.smul_x, V3.smul_y, V3.smul_z]
      ring
    rw [e, ← ht]
    ring
  rw [hdot, hdot]
  nlinarith

end agree

/-- The two values of a short edge differ: a point one away from an edge of length `1/20000`. -/
example : pointLine3 (⟨1, 0, 0⟩ : V3 ℚ) ⟨0, 0, 0⟩ ⟨1 / 20000, 0, 0⟩ = 1 ∧
    Geom.pointLine3 (⟨1, 0, 0⟩ : V3 ℚ) ⟨0, 0, 0⟩ ⟨1 / 20000, 0, 0⟩ = (19999 / 20000) ^ 2 := by
  have h : V3.dot ((⟨1 / 20000, 0, 0⟩ : V3 ℚ) - ⟨0, 0, 0⟩) ((⟨1 / 20000, 0, 0⟩ : V3 ℚ) - ⟨0, 0, 0⟩) < kEps := by norm_num [V3.dot, kEps]
  rw [(pointLine3_short h).1, (pointLine3_short h).2]
  norm_num [V3.dot]

noncomputable section

theorem norm_eq (a : V3 ℝ) : norm a = Rot.norm a := by
  simp only [norm, Rot.norm, V3.dot]
  congr 1

/-- The (unsquared) distances of the two devices to a short edge differ by less than a ten-thousandth. -/
theorem pointLine3_close {p v0 v1 : V3 ℝ} (h : V3.dot (v1 - v0) (v1 - v0) < kEps) :
    |Real.sqrt (pointLine3 p v0 v1) - Real.sqrt (Geom.pointLine3 p v0 v1)| < 1 / 10 ^ 4 := by
  rw [(pointLine3_short h).1, (pointLine3_short h).2]
  have hn : Real.sqrt (V3.dot (v1 - v0) (v1 - v0)) < 1 / 10 ^ 4 := by
    rw [Real.sqrt_lt' (by norm_num)]
    calc _ < kEps := h
      _ = _ := by norm_num [kEps]
  have tri : ∀ a b : V3 ℝ, Real.sqrt (V3.dot (a + b) (a + b)) ≤ Real.sqrt (V3.dot a a) + Real.sqrt (V3.dot b b) := by
    intro a b
    have na : 0 ≤ V3.dot a a := by simp only [V3.dot]; nlinarith [sq_nonneg a.x, sq_nonneg a.y, sq_nonneg a.z]
    have nb : 0 ≤ V3.dot b b := by simp only [V3.dot]; nlinarith [sq_nonneg b.x, sq_nonneg b.y, sq_nonneg b.z]
    have cs : V3.dot a b ≤ Real.sqrt (V3.dot a a) * Real.sqrt (V3.dot b b) := by
      rw [← Real.sqrt_mul na]
      apply Real.le_sqrt_of_sq_le
      simp only [V3.dot]
      nlinarith [sq_nonneg (a.x * b.y - a.y * b.x), sq_nonneg (a.x * b.z - a.z * b.x), sq_nonneg (a.y * b.z - a.z * b.y)]
    rw [Real.sqrt_le_left (by positivity)]
    have e1 := Real.sq_sqrt na
    have e2 := Real.sq_sqrt nb
    have e3 : V3.dot (a + b) (a + b) = V3.dot a a + 2 * V3.dot a b + V3.dot b b := by
      simp only [V3.dot, V3.add_x, V3.add_y, V3.add_z]
      ring
    rw [e3]
    nlinarith
  have h1 := tri (p - v1) (v1 - v0)
  have h2 := tri (p - v0) (v0 - v1)
  have e1 : p - v1 + (v1 - v0) = p - v0 := by ext <;> simp
  have e2 : p - v0 + (v0 - v1) = p - v1 := by ext <;> simp
  have e3 : V3.dot (v0 - v1) (v0 - v1) = V3.dot (v1 - v0) (v1 - v0) := by
    simp only [V3.dot, V3.sub_x, V3.sub_y, V3.sub_z]
    ring
  rw [e1] at h1
  rw [e2, e3] at h2
  rw [abs_lt]
  constructor <;> linarith

theorem area3_eq (v0 v1 v2 : V3 ℝ) : area3 v0 v1 v2 = Geom.area3 v0 v1 v2 := by
  unfold area3 Geom.area3 hypot
  dsimp only
  rw [← norm_eq, norm, Real.sq_sqrt (by positivity)]
  congr 2
  simp only [V3.cross, V3.dot]
  ring

theorem insideTri_iff (p v0 v1 v2 : V3 ℝ) (m : ℝ) : InsideTri p v0 v1 v2 m ↔ Geom.InsideTri p v0 v1 v2 m := by
  unfold InsideTri Geom.InsideTri
  rw [area3_eq, bary3_eq]
  tauto

theorem triNormal_eq (v0 v1 v2 : V3 ℝ) : triNormal v0 v1 v2 = Geom.triNormal v0 v1 v2 := by
  unfold triNormal Geom.triNormal rawNormal
  dsimp only
  rw [norm_eq]
  ext <;> simp [div_eq_inv_mul]

theorem planeT_eq (p v0 v1 v2 : V3 ℝ) : planeT p v0 v1 v2 = Geom.planeT p v0 v1 v2 := by
  unfold planeT Geom.planeT
  rw [triNormal_eq]

theorem usePlane_iff (p v0 v1 v2 : V3 ℝ) (m : ℝ) : UsePlane p v0 v1 v2 m ↔ Geom.UsePlane p v0 v1 v2 m := by
  unfold UsePlane Geom.UsePlane rawNormal
  rw [insideTri_iff, planeT_eq, triNormal_eq, norm_eq]

/-- Triangles without short edges: the devices agree on the distance and on all gradients. -/
theorem pointTri3_eq {p v0 v1 v2 : V3 ℝ} (m : ℝ) (h01 : kEps < V3.dot (v1 - v0) (v1 - v0)) (h02 : kEps < V3.dot (v2 - v0) (v2 - v0))
    (h12 : kEps < V3.dot (v2 - v1) (v2 - v1)) : pointTri3 p v0 v1 v2 m = Geom.pointTri3 p v0 v1 v2 m := by
  unfold pointTri3 Geom.pointTri3
  by_cases h : UsePlane p v0 v1 v2 m
  · simp only [if_pos h, if_pos ((usePlane_iff p v0 v1 v2 m).mp h), planeT_eq]
  · simp only [if_neg h, if_neg (fun h' => h ((usePlane_iff p v0 v1 v2 m).mpr h')), pointLine3_eq h01, pointLine3_eq h02, pointLine3_eq h12]

/-- A unit triangle. -/
example (p : V3 ℝ) (m : ℝ) : pointTri3 p ⟨0, 0, 0⟩ ⟨1, 0, 0⟩ ⟨0, 1, 0⟩ m = Geom.pointTri3 p ⟨0, 0, 0⟩ ⟨1, 0, 0⟩ ⟨0, 1, 0⟩ m :=
  pointTri3_eq m (by norm_num [V3.dot, kEps]) (by norm_num [V3.dot, kEps]) (by norm_num [V3.dot, kEps])

theorem normalizeBackward_eq (a g : V3 ℝ) : normalizeBackward a g = Geom.normalizeBackward a g := by
  unfold normalizeBackward Geom.normalizeBackward
  dsimp only
  rw [norm_eq]
  simp only [V3.smul_x, V3.smul_y, V3.smul_z, div_eq_inv_mul]

theorem crossBackward_eq (a b g : V3 ℝ) : crossBackward a b g = Geom.crossBackward a b g := rfl

theorem pointTri3Backward_eq {p v0 v1 v2 : V3 ℝ} (g m : ℝ) (h01 : kEps < V3.dot (v1 - v0) (v1 - v0)) (h02 : kEps < V3.dot (v2 - v0) (v2 - v0))
    (h12 : kEps < V3.dot (v2 - v1) (v2 - v1)) : pointTri3Backward p v0 v1 v2 g m = Geom.pointTri3Backward p v0 v1 v2 g m := by
  unfold pointTri3Backward Geom.pointTri3Backward rawNormal
  by_cases h : UsePlane p v0 v1 v2 m
  · simp only [if_pos h, if_pos ((usePlane_iff p v0 v1 v2 m).mp h), planeT_eq, triNormal_eq, normalizeBackward_eq, crossBackward_eq]
  · simp only [if_neg h, if_neg (fun h' => h ((usePlane_iff p v0 v1 v2 m).mpr h')), pointLine3Backward_eq, pointLine3_eq h01, pointLine3_eq h02, pointLine3_eq h12]

/-- A point seen from the inside of a triangle: the devices agree whatever the edges. -/
theorem pointTri3_plane {p v0 v1 v2 : V3 ℝ} (g m : ℝ) (h : UsePlane p v0 v1 v2 m) :
    pointTri3 p v0 v1 v2 m = Geom.pointTri3 p v0 v1 v2 m ∧ pointTri3Backward p v0 v1 v2 g m = Geom.pointTri3Backward p v0 v1 v2 g m := by
  have h' := (usePlane_iff p v0 v1 v2 m).mp h
  constructor
  · unfold pointTri3 Geom.pointTri3
    rw [if_pos h, if_pos h', planeT_eq]
  · unfold pointTri3Backward Geom.pointTri3Backward rawNormal
    simp only [if_pos h, if_pos h', planeT_eq, triNormal_eq, normalizeBackward_eq, crossBackward_eq]

/-- A triangle of area below the minimum is measured by its edges; if all three are short the GPU returns the smaller of the distances to the first two vertices, the CPU of the last two. -/
theorem pointTri3_tiny {p v0 v1 v2 : V3 ℝ} (m : ℝ) (ha : Geom.area3 v0 v1 v2 < m) (h01 : V3.dot (v1 - v0) (v1 - v0) < kEps) (h02 : V3.dot (v2 - v0) (v2 - v0) < kEps)
    (h12 : V3.dot (v2 - v1) (v2 - v1) < kEps) :
    pointTri3 p v0 v1 v2 m = min (V3.dot (p - v0) (p - v0)) (V3.dot (p - v1) (p - v1)) ∧
    Geom.pointTri3 p v0 v1 v2 m = min (V3.dot (p - v1) (p - v1)) (V3.dot (p - v2) (p - v2)) := by
  have hn' : ¬ Geom.UsePlane p v0 v1 v2 m := fun h => h.1.1 ha
  have hn : ¬ UsePlane p v0 v1 v2 m := fun h => hn' ((usePlane_iff p v0 v1 v2 m).mp h)
  constructor
  · unfold pointTri3
    rw [if_neg hn]
    dsimp only
    rw [(pointLine3_short h01).1, (pointLine3_short h02).1, (pointLine3_short h12).1, if_neg (lt_irrefl _)]
    rcases le_total (V3.dot (p - v0) (p - v0)) (V3.dot (p - v1) (p - v1)) with hc | hc
    · rw [if_neg (not_lt.mpr hc), min_eq_left hc]
    · rw [min_eq_right hc]
      rcases eq_or_lt_of_le hc with he | hl
      · rw [if_neg (not_lt.mpr he.ge), he]
      · rw [if_pos hl]
  · unfold Geom.pointTri3
    rw [if_neg hn']
    dsimp only
    rw [(pointLine3_short h01).2, (pointLine3_short h02).2, (pointLine3_short h12).2]
    rcases le_total (V3.dot (p - v1) (p - v1)) (V3.dot (p - v2) (p - v2)) with hc | hc
    · rw [if_neg (not_lt.mpr hc), if_neg (not_lt.mpr hc), min_eq_left hc]
    · rw [min_eq_right hc]
      rcases eq_or_lt_of_le hc with he | hl
      · rw [he]
        simp
      · rw [if_pos hl, if_neg (lt_irrefl _)]

end

end P3D.GeomGpu
