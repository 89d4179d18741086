/-
The numerical functions `Meshes` calls on packed data, over the reals: face areas and normals
(`csrc/face_areas_normals/face_areas_normals_cpu.cpp`) and vertex normals
(`meshes.py:901-926`).  Float rounding is not modelled.
-/
import Verif.Vec3
import Verif.Edges
import Mathlib.Analysis.SpecialFunctions.Pow.NNReal

namespace P3D.Meshes

open P3D

/-- `verts_packed[faces_packed]`: corners of a face; `none` if an index is out of range (torch
raises). -/
def corner {X : Type} (l : List X) (i : Int) : Option X := if 0 ≤ i then l[i.toNat]? else none

/-- The three corners of a face. -/
def corners {X : Type} (l : List X) (f : Face) : Option (X × X × X) := do
  let a ← corner l f.1
  let b ← corner l f.2.1
  let c ← corner l f.2.2
  some (a, b, c)

/-- Euclidean length (`sqrt` of the sum of squares). -/
noncomputable def norm3 (v : V3 ℝ) : ℝ := Real.sqrt v.normSq

/-- Division by `max(norm, eps)`: `torch.nn.functional.normalize(v, eps=eps)` and the clamp at
`face_areas_normals_cpu.cpp:56-59`. -/
noncomputable def normalize (eps : ℝ) (v : V3 ℝ) : V3 ℝ := (1 / max (norm3 v) eps) • v

/-- `face_areas_normals_cpu.cpp:13-62` `FaceAreasNormalsForwardCpu`: area and unit normal of each
face. -/
noncomputable def faceAreasNormals (l : List (V3 ℝ)) (faces : List Face) :
    Option (List (ℝ × V3 ℝ)) :=
  faces.mapM (fun f => (corners l f).map (fun t =>
    let c := V3.cross (t.2.1 - t.1) (t.2.2 - t.1)
    (norm3 c / 2, normalize (1 / 1000000) c)))

/-- `meshes.py:905-909`: unnormalised face normals `(v2 - v1) × (v0 - v1)`. -/
def rawNormals (l : List (V3 ℝ)) (faces : List Face) : Option (List (V3 ℝ)) :=
  faces.mapM (fun f => (corners l f).map (fun t => V3.cross (t.2.2 - t.2.1) (t.1 - t.2.1)))

/-- `zeros.index_add(0, idx, vals)`, entry `v`. -/
noncomputable def indexAdd (idx : List Int) (vals : List (V3 ℝ)) (v : Nat) : V3 ℝ :=
  (List.zipWith (fun i x => if i = (v : Int) then x else 0) idx vals).sum

/-- `meshes.py:904-922`: the sum of the raw face normals around vertex `v`. -/
noncomputable def normalSum (faces : List Face) (n : List (V3 ℝ)) (v : Nat) : V3 ℝ :=
  indexAdd (faces.map (fun f => f.1)) n v + indexAdd (faces.map (fun f => f.2.1)) n v +
    indexAdd (faces.map (fun f => f.2.2)) n v

/-- `meshes.py:901-926` (non-empty branch of `_compute_vertex_normals`).  If a face index is out of
range torch raises; the model returns the empty list. -/
noncomputable def vertexNormals (l : List (V3 ℝ)) (faces : List Face) : List (V3 ℝ) :=
  match rawNormals l faces with
  | none => []
  | some n => (List.range l.length).map (fun v => normalize (1 / 1000000) (normalSum faces n v))

/-- The operations used by the class, over ℝ; edges by `_compute_edges_packed` with a stable sort.
The Laplacian slot is left to its own module. -/
noncomputable def geomOps {L : Type} (lap : Nat → EdgeView → L) :
    Ops (V3 ℝ) ℝ (Option (List (ℝ × V3 ℝ))) EdgeView L where
  zero := 0
  add := fun a b => a + b
  smul := fun c a => c • a
  areas := faceAreasNormals
  vnormals := vertexNormals
  edges := fun N V faces f2m =>
    computeEdges (stableSortIdx ((rawEdges faces).map (fun e => edgeHash V (sortPair e)))) N V faces f2m
  lap := lap

end P3D.Meshes
