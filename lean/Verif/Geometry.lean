/-
`csrc/utils/geometry_utils.h` and `csrc/utils/vec2.h`: edge function, barycentric coordinates, distances of
points to segments and triangles, with their hand-written backward passes.

The template parameter `T` is an ordered field (ℝ where a square root is taken).  Division by zero, which
produces inf or NaN in the code, yields 0 here; theorems about quotients have a non-zero divisor.
-/
import Verif.Vec3
import Verif.Rotations
import Mathlib.Algebra.Order.Field.Basic

namespace P3D

/-- `csrc/utils/vec2.h:14-22` `struct vec2`. -/
@[ext]
structure V2 (R : Type*) where
  x : R
  y : R
  deriving DecidableEq, Repr

namespace V2
variable {R : Type*} [CommRing R]

/-- `vec2.h:24-42`. -/
instance : Zero (V2 R) := ⟨⟨0, 0⟩⟩
instance : Add (V2 R) := ⟨fun a b => ⟨a.x + b.x, a.y + b.y⟩⟩
instance : Sub (V2 R) := ⟨fun a b => ⟨a.x - b.x, a.y - b.y⟩⟩
instance : SMul R (V2 R) := ⟨fun c a => ⟨c * a.x, c * a.y⟩⟩

/-- `vec2.h:44-47` `dot`. -/
def dot (a b : V2 R) : R := a.x * b.x + a.y * b.y

@[simp] theorem zero_x : (0 : V2 R).x = 0 := rfl
@[simp] theorem zero_y : (0 : V2 R).y = 0 := rfl
@[simp] theorem add_x (a b : V2 R) : (a + b).x = a.x + b.x := rfl
@[simp] theorem add_y (a b : V2 R) : (a + b).y = a.y + b.y := rfl
@[simp] theorem sub_x (a b : V2 R) : (a - b).x = a.x - b.x := rfl
@[simp] theorem sub_y (a b : V2 R) : (a - b).y = a.y - b.y := rfl
@[simp] theorem smul_x (c : R) (a : V2 R) : (c • a).x = c * a.x := rfl
@[simp] theorem smul_y (c : R) (a : V2 R) : (c • a).y = c * a.y := rfl

end V2

namespace Geom

section field
variable {K : Type*} [Field K]

/-- `kEpsilon` (and `vEpsilon`), lines 17 and 604. -/
def kEps : K := 1 / 10 ^ 8

/-- `EdgeFunctionForward`, lines 52-55. -/
def edge (p v0 v1 : V2 K) : K := (p.x - v0.x) * (v1.y - v0.y) - (p.y - v0.y) * (v1.x - v0.x)

/-- `EdgeFunctionBackward`, lines 70-80. -/
def edgeBackward (p v0 v1 : V2 K) (g : K) : V2 K × V2 K × V2 K :=
  (g • ⟨v1.y - v0.y, v0.x - v1.x⟩, g • ⟨p.y - v1.y, v1.x - p.x⟩, g • ⟨v0.y - p.y, p.x - v0.x⟩)

/-- `BarycentricCoordinatesForward`, lines 95-105. -/
def bary (p v0 v1 v2 : V2 K) : V3 K :=
  let area := edge v2 v0 v1 + kEps
  ⟨edge p v1 v2 / area, edge p v2 v0 / area, edge p v0 v1 / area⟩

/-- `BarycentricCoordsBackward`, lines 121-181. -/
def baryBackward (p v0 v1 v2 : V2 K) (g : V3 K) : V2 K × V2 K × V2 K × V2 K :=
  let area := edge v2 v0 v1 + kEps
  let e0 := edge p v1 v2
  let e1 := edge p v2 v0
  let e2 := edge p v0 v1
  let de0 := edgeBackward p v1 v2 (g.x * (1 / area))
  let da0 := edgeBackward v2 v0 v1 (g.x * (-e0 / area ^ 2))
  let de1 := edgeBackward p v2 v0 (g.y * (1 / area))
  let da1 := edgeBackward v2 v0 v1 (g.y * (-e1 / area ^ 2))
  let de2 := edgeBackward p v0 v1 (g.z * (1 / area))
  let da2 := edgeBackward v2 v0 v1 (g.z * (-e2 / area ^ 2))
  (de0.1 + de1.1 + de2.1,
   da0.2.1 + (de1.2.2 + da1.2.1) + (de2.2.1 + da2.2.1),
   (de0.2.1 + da0.2.2) + da1.2.2 + (de2.2.2 + da2.2.2),
   (de0.2.2 + da0.1) + (de1.2.1 + da1.1) + da2.1)

variable [LinearOrder K]

/-- `BarycentricPerspectiveCorrectionForward`, lines 193-206. -/
def perspCorrect (b : V3 K) (z0 z1 z2 : K) : V3 K :=
  let w0 := b.x * z1 * z2
  let w1 := b.y * z0 * z2
  let w2 := b.z * z0 * z1
  let denom := max (w0 + w1 + w2) kEps
  ⟨w0 / denom, w1 / denom, w2 / denom⟩

/-- `BarycentricPerspectiveCorrectionBackward`, lines 222-249. -/
def perspCorrectBackward (b : V3 K) (z0 z1 z2 : K) (g : V3 K) : V3 K × K × K × K :=
  let w0 := b.x * z1 * z2
  let w1 := b.y * z0 * z2
  let w2 := b.z * z0 * z1
  let denom := max (w0 + w1 + w2) kEps
  let gd := (-w0 * g.x - w1 * g.y - w2 * g.z) / (denom * denom)
  let g0 := gd + g.x / denom
  let g1 := gd + g.y / denom
  let g2 := gd + g.z / denom
  (⟨g0 * z1 * z2, g1 * z0 * z2, g2 * z0 * z1⟩,
   g1 * b.y * z2 + g2 * b.z * z1, g0 * b.x * z2 + g2 * b.z * z0, g0 * b.x * z1 + g1 * b.y * z0)

/-- `BarycentricClipForward`, lines 267-280. -/
def clip (b : V3 K) : V3 K :=
  let w : V3 K := ⟨max b.x 0, max b.y 0, max b.z 0⟩
  let s := max (w.x + w.y + w.z) (1 / 10 ^ 5)
  ⟨w.x / s, w.y / s, w.z / s⟩

/-- `BarycentricClipBackward`, lines 294-350. -/
def clipBackward (b g : V3 K) : V3 K :=
  let w : V3 K := ⟨max b.x 0, max b.y 0, max b.z 0⟩
  let s0 := w.x + w.y + w.z
  let gsc : K := if s0 < 1 / 10 ^ 5 then 0 else 1
  let s := if s0 < 1 / 10 ^ 5 then 1 / 10 ^ 5 else s0
  let gc : V3 K := ⟨if b.x < 0 then 0 else 1, if b.y < 0 then 0 else 1, if b.z < 0 then 0 else 1⟩
  let gs : V3 K := ⟨-w.x / s ^ 2 * gsc, -w.y / s ^ 2 * gsc, -w.z / s ^ 2 * gsc⟩
  ⟨gc.x * (g.x * (1 / s + gs.x) + g.y * gs.y + g.z * gs.z),
   gc.y * (g.y * (1 / s + gs.y) + g.x * gs.x + g.z * gs.z),
   gc.z * (g.z * (1 / s + gs.z) + g.x * gs.x + g.y * gs.y)⟩

/-- The clamp `std::min(std::max(t, 0), 1)`. -/
def clamp01 (t : K) : K := min (max t 0) 1

/-- `PointLineDistanceForward`, lines 375-389. -/
def pointLine (p v0 v1 : V2 K) : K :=
  let d := v1 - v0
  let l2 := V2.dot d d
  if l2 ≤ kEps then V2.dot (p - v1) (p - v1)
  else
    let q := v0 + clamp01 (V2.dot d (p - v0) / l2) • d
    V2.dot (p - q) (p - q)

/-- `PointLine3DistanceForward`, lines 392-406. -/
def pointLine3 (p v0 v1 : V3 K) : K :=
  let d := v1 - v0
  let l2 := V3.dot d d
  if l2 ≤ kEps then V3.dot (p - v1) (p - v1)
  else
    let q := v0 + clamp01 (V3.dot d (p - v0) / l2) • d
    V3.dot (p - q) (p - q)

/-- `PointLineDistanceBackward`, lines 420-439: gradients for `p`, `v0`, `v1`. -/
def pointLineBackward (p v0 v1 : V2 K) (g : K) : V2 K × V2 K × V2 K :=
  let d := v1 - v0
  let tt := clamp01 (V2.dot d (p - v0) / V2.dot d d)
  let q := (1 - tt) • v0 + tt • v1
  ((-1 * g * 2) • (q - p), (g * (1 - tt) * 2) • (q - p), (g * tt * 2) • (q - p))

/-- `PointLine3DistanceBackward`, lines 442-484. -/
def pointLine3Backward (p v0 v1 : V3 K) (g : K) : V3 K × V3 K × V3 K :=
  let d := v1 - v0
  let pv0 := p - v0
  let bot := V3.dot d d
  let tt := V3.dot d pv0 / bot
  if bot < kEps then
    let gp := (g * 2) • pv0
    (gp, (-1 / 2 : K) • gp, (-1 / 2 : K) • gp)
  else if tt < 0 then
    let gp := (g * 2) • pv0
    (gp, (-1 : K) • gp, 0)
  else if tt > 1 then
    let gp := (g * 2) • (p - v1)
    (gp, 0, (-1 : K) • gp)
  else
    let base := (g * 2) • (p - (v0 + tt • d))
    let c := V3.dot base d
    (base - (bot⁻¹ * c) • d,
     (-1 + tt) • base - c • (bot⁻¹ • ((-1 : K) • d - pv0 + (2 * tt) • d)),
     (-c) • (bot⁻¹ • (pv0 - (2 * tt) • d)) - tt • base)

/-- `PointTriangleDistanceForward`, lines 499-512. -/
def pointTri (p v0 v1 v2 : V2 K) : K :=
  min (min (pointLine p v0 v1) (pointLine p v0 v2)) (pointLine p v1 v2)

/-- `PointTriangleDistanceBackward`, lines 527-567: gradients for `p`, `v0`, `v1`, `v2`. -/
def pointTriBackward (p v0 v1 v2 : V2 K) (g : K) : V2 K × V2 K × V2 K × V2 K :=
  let e01 := pointLine p v0 v1
  let e02 := pointLine p v0 v2
  let e12 := pointLine p v1 v2
  if e01 ≤ e02 ∧ e01 ≤ e12 then
    let r := pointLineBackward p v0 v1 g
    (r.1, r.2.1, r.2.2, 0)
  else if e02 ≤ e01 ∧ e02 ≤ e12 then
    let r := pointLineBackward p v0 v2 g
    (r.1, r.2.1, 0, r.2.2)
  else if e12 ≤ e01 ∧ e12 ≤ e02 then
    let r := pointLineBackward p v1 v2 g
    (r.1, 0, r.2.1, r.2.2)
  else (0, 0, 0, 0)

/-- `BarycentricCoords3Forward`, lines 607-628. -/
def bary3 (p v0 v1 v2 : V3 K) : V3 K :=
  let p0 := v1 - v0
  let p1 := v2 - v0
  let p2 := p - v0
  let d00 := V3.dot p0 p0
  let d01 := V3.dot p0 p1
  let d11 := V3.dot p1 p1
  let d20 := V3.dot p2 p0
  let d21 := V3.dot p2 p1
  let denom := d00 * d11 - d01 * d01 + kEps
  let w1 := (d11 * d20 - d01 * d21) / denom
  let w2 := (d00 * d21 - d01 * d20) / denom
  ⟨1 - w1 - w2, w1, w2⟩

end field

noncomputable section real

/-- `AreaOfTriangle`, lines 577-587. -/
def area3 (v0 v1 v2 : V3 ℝ) : ℝ := Rot.norm (V3.cross (v1 - v0) (v2 - v0)) / 2

/-- `IsInsideTriangle`, lines 650-667. -/
def InsideTri (p v0 v1 v2 : V3 ℝ) (minArea : ℝ) : Prop :=
  ¬ area3 v0 v1 v2 < minArea ∧
    (0 ≤ (bary3 p v0 v1 v2).x ∧ (bary3 p v0 v1 v2).x ≤ 1) ∧
    (0 ≤ (bary3 p v0 v1 v2).y ∧ (bary3 p v0 v1 v2).y ≤ 1) ∧
    (0 ≤ (bary3 p v0 v1 v2).z ∧ (bary3 p v0 v1 v2).z ≤ 1)

/-- The unnormalized normal, lines 676 and 764. -/
def rawNormal (v0 v1 v2 : V3 ℝ) : V3 ℝ := V3.cross (v2 - v0) (v1 - v0)

/-- Lines 677-678: the normal, divided by its length plus `vEpsilon`. -/
def triNormal (v0 v1 v2 : V3 ℝ) : V3 ℝ := (Rot.norm (rawNormal v0 v1 v2) + kEps)⁻¹ • rawNormal v0 v1 v2

/-- Lines 682 and 770. -/
def planeT (p v0 v1 v2 : V3 ℝ) : ℝ := V3.dot (v0 - p) (triNormal v0 v1 v2)

/-- The condition of lines 688 and 781: the projected point is inside and the normal is not tiny. -/
def UsePlane (p v0 v1 v2 : V3 ℝ) (minArea : ℝ) : Prop :=
  InsideTri (p + planeT p v0 v1 v2 • triNormal v0 v1 v2) v0 v1 v2 minArea ∧ kEps < Rot.norm (rawNormal v0 v1 v2)

open Classical in
/-- `PointTriangle3DistanceForward`, lines 670-702. -/
def pointTri3 (p v0 v1 v2 : V3 ℝ) (minArea : ℝ) : ℝ :=
  if UsePlane p v0 v1 v2 minArea then planeT p v0 v1 v2 * planeT p v0 v1 v2
  else
    let e01 := pointLine3 p v0 v1
    let e02 := pointLine3 p v0 v2
    let e12 := pointLine3 p v1 v2
    let d := if e01 > e02 then e02 else e01
    if d > e12 then e12 else d

/-- `cross_backward`, lines 706-718. -/
def crossBackward (a b g : V3 ℝ) : V3 ℝ × V3 ℝ :=
  (⟨-g.y * b.z + g.z * b.y, g.x * b.z - g.z * b.x, -g.x * b.y + g.y * b.x⟩,
   ⟨g.y * a.z - g.z * a.y, -g.x * a.z + g.z * a.x, g.x * a.y - g.y * a.x⟩)

/-- `normalize_backward`, lines 721-735. -/
def normalizeBackward (a g : V3 ℝ) : V3 ℝ :=
  let n := Rot.norm a + kEps
  let o := n⁻¹ • a
  ⟨g.x * (1 - o.x * o.x) / n + g.y * (-o.x * o.y) / n + g.z * (-o.x * o.z) / n,
   g.x * (-o.x * o.y) / n + g.y * (1 - o.y * o.y) / n + g.z * (-o.y * o.z) / n,
   g.x * (-o.x * o.z) / n + g.y * (-o.y * o.z) / n + g.z * (1 - o.z * o.z) / n⟩

open Classical in
/-- `PointTriangle3DistanceBackward`, lines 754-823: gradients for `p`, `v0`, `v1`, `v2`. -/
def pointTri3Backward (p v0 v1 v2 : V3 ℝ) (g minArea : ℝ) : V3 ℝ × V3 ℝ × V3 ℝ × V3 ℝ :=
  let nrm := triNormal v0 v1 v2
  let t := planeT p v0 v1 v2
  if UsePlane p v0 v1 v2 minArea then
    let gn := (2 * g * t) • ((v0 - p) + t • nrm)
    let gr := normalizeBackward (rawNormal v0 v1 v2) gn
    let gc := crossBackward (v2 - v0) (v1 - v0) gr
    ((-2 * g * t) • nrm, (g * 2 * t) • nrm - (gc.1 + gc.2), gc.2, gc.1)
  else
    let e01 := pointLine3 p v0 v1
    let e02 := pointLine3 p v0 v2
    let e12 := pointLine3 p v1 v2
    if e01 ≤ e02 ∧ e01 ≤ e12 then
      let r := pointLine3Backward p v0 v1 g
      (r.1, r.2.1, r.2.2, 0)
    else if e02 ≤ e01 ∧ e02 ≤ e12 then
      let r := pointLine3Backward p v0 v2 g
      (r.1, r.2.1, 0, r.2.2)
    else if e12 ≤ e01 ∧ e12 ≤ e02 then
      let r := pointLine3Backward p v1 v2 g
      (r.1, 0, r.2.1, r.2.2)
    else (0, 0, 0, 0)

end real

end Geom
end P3D
