/-
Model of the Laplacian matrices, `pytorch3d/ops/laplacian_matrices.py`:
23-72 (laplacian), 75-143 (cot_laplacian), 146-178 (norm_laplacian).

A sparse COO tensor is the list of its (index, value) entries; duplicates add up
(`Scatter.scatterAdd`).  Numbers are reals for the two matrices that use norms; rounding and the
float32 conversion are not modelled.  Indices are natural numbers and assumed in range
(`torch.sparse_coo_tensor` raises otherwise).
-/
import Verif.Scatter
import Verif.Vec3
import Mathlib.Algebra.Order.Field.Basic
import Mathlib.Analysis.SpecialFunctions.Pow.Real

namespace P3D.Laplacian
open P3D.Scatter

section Uniform
variable {R : Type*} [Field R] [LinearOrder R]

/-- `idx = cat([idx01, idx10])`, lines 41-45. -/
def bothWays (edges : List (Nat × Nat)) : List (Nat × Nat) := edges ++ edges.map Prod.swap

/-- `deg = torch.sparse.sum(A, dim=1)`, lines 50-54: row sums of the adjacency matrix. -/
def degree (edges : List (Nat × Nat)) : Nat → R :=
  scatterAdd ((bothWays edges).map fun p => (p.1, (1 : R)))

/-- `torch.where(deg > 0.0, torch.reciprocal(deg), deg)`, lines 58-61. -/
def recipOr (x : R) : R := if x > 0 then x⁻¹ else x

/-- `laplacian`, lines 23-72, as a matrix. -/
def laplacian (V : Nat) (edges : List (Nat × Nat)) : Nat × Nat → R :=
  let deg : Nat → R := degree edges
  let val := (edges.map fun e => recipOr (deg e.1)) ++ edges.map fun e => recipOr (deg e.2)
  scatterAdd ((bothWays edges).zip val ++ (List.range V).map fun i => ((i, i), -1))

end Uniform

noncomputable section

/-- `x.norm(dim=1)`. -/
def norm (a : V3 ℝ) : ℝ := Real.sqrt (V3.normSq a)

/-- Side lengths and area of a face, lines 94-107: Heron's formula clamped at `eps`. -/
def heron (A B C : ℝ) : ℝ :=
  let s := 1 / 2 * (A + B + C)
  s * (s - A) * (s - B) * (s - C)

def area (eps : ℝ) (v0 v1 v2 : V3 ℝ) : ℝ :=
  Real.sqrt (max (heron (norm (v1 - v2)) (norm (v0 - v2)) (norm (v0 - v1))) eps)

/-- `cot`, lines 110-115. -/
def cots (eps : ℝ) (v0 v1 v2 : V3 ℝ) : ℝ × ℝ × ℝ :=
  let A := norm (v1 - v2)
  let B := norm (v0 - v2)
  let C := norm (v0 - v1)
  let ar := area eps v0 v1 v2
  ((B * B + C * C - A * A) / ar / 4, (A * A + C * C - B * B) / ar / 4,
    (A * A + B * B - C * C) / ar / 4)

abbrev Face := Nat × Nat × Nat

/-- Entries of the first sparse matrix, lines 117-124. -/
def cotEntries (eps : ℝ) (verts : Nat → V3 ℝ) (faces : List Face) : List ((Nat × Nat) × ℝ) :=
  faces.flatMap fun f =>
    let c := cots eps (verts f.1) (verts f.2.1) (verts f.2.2)
    [((f.2.1, f.2.2), c.1), ((f.2.2, f.1), c.2.1), ((f.1, f.2.1), c.2.2)]

/-- `L + L.t()`, line 130. -/
def addT (L : Nat × Nat → ℝ) : Nat × Nat → ℝ := fun p => L p + L p.swap

/-- `cot_laplacian`, lines 75-143: the matrix. -/
def cotLaplacian (eps : ℝ) (verts : Nat → V3 ℝ) (faces : List Face) : Nat × Nat → ℝ :=
  addT (scatterAdd (cotEntries eps verts faces))

/-- `inv_areas`, lines 132-141. -/
def invAreas (eps : ℝ) (verts : Nat → V3 ℝ) (faces : List Face) (v : Nat) : ℝ :=
  let a := scatterAdd (faces.flatMap fun f =>
    let ar := area eps (verts f.1) (verts f.2.1) (verts f.2.2)
    [(f.1, ar), (f.2.1, ar), (f.2.2, ar)]) v
  if a > 0 then a⁻¹ else a

/-- `norm_laplacian`, lines 146-178. -/
def normLaplacian (eps : ℝ) (verts : Nat → V3 ℝ) (edges : List (Nat × Nat)) : Nat × Nat → ℝ :=
  addT (scatterAdd (edges.map fun e => (e, (norm (verts e.1 - verts e.2) + eps)⁻¹)))

end

end P3D.Laplacian
