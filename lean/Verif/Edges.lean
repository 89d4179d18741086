/-
Model of `Meshes._compute_edges_packed` (`pytorch3d/structures/meshes.py:1036-1135`), the
non-empty branch.
-/
import Verif.Meshes

namespace P3D.Meshes

open P3D.StructUtils

/-- The edge tensors (`meshes.py:1111-1135`). -/
structure EdgeView where
  edges : List (Int × Int)
  toMesh : List Nat
  faceToEdge : List (Nat × Nat × Nat)
  numEdges : List Nat
  firstEdge : List Nat
  deriving DecidableEq, Repr

/-- `meshes.py:1070-1077`: all sides of all faces, in the order (v1,v2), (v2,v0), (v0,v1). -/
def rawEdges (faces : List Face) : List (Int × Int) :=
  faces.map (fun f => (f.2.1, f.2.2)) ++ faces.map (fun f => (f.2.2, f.1)) ++
    faces.map (fun f => (f.1, f.2.1))

/-- `meshes.py:1091` `edges.sort(dim=1)`, one row. -/
def sortPair (e : Int × Int) : Int × Int := if e.1 ≤ e.2 then e else (e.2, e.1)

/-- `meshes.py:1105` `V * edges[:, 0] + edges[:, 1]`. -/
def edgeHash (V : Nat) (e : Int × Int) : Int := V * e.1 + e.2

/-- Values returned by `torch.unique` (sorted by default): the distinct values in ascending order. -/
abbrev uniqueSorted (l : List Int) : List Int := uniqueInts l

/-- `meshes.py:1112-1115`: mask of the positions where a sorted sequence changes. -/
def changeMask : List Int → List Bool
  | [] => []
  | x :: xs => true :: List.zipWith (fun a b => decide (a ≠ b)) xs (x :: xs)

/-- Boolean-mask indexing `x[mask]`. -/
def maskSelect {X : Type} (l : List X) (m : List Bool) : List X :=
  ((l.zip m).filter (fun p => p.2)).map Prod.fst

/-- A possible second output of `torch.sort(h)` (`meshes.py:1111`): any permutation of the positions
that makes the values ascend (torch.sort is not stable by default, so ties may come in any order). -/
def IsSortIdx (h : List Int) (idx : List Nat) : Prop :=
  idx.Perm (List.range h.length) ∧ (idx.map (fun i => h.getD i 0)).Pairwise (· ≤ ·)

/-- `meshes.py:1066-1135`.  `N` batch size, `V` number of packed vertices, `f2m` the mesh of each
face, `sortIdx` the permutation chosen by `torch.sort`.  The lookups `getD` are always in range
(`sortIdx` is a permutation of the positions). -/
def computeEdges (sortIdx : List Nat) (N V : Nat) (faces : List Face) (f2m : List Nat) : EdgeView :=
  let h := (rawEdges faces).map (fun e => edgeHash V (sortPair e))
  let e2m := f2m ++ f2m ++ f2m
  let u := uniqueSorted h
  let inv := h.map (fun x => u.idxOf x)
  let uidx := maskSelect sortIdx (changeMask (sortIdx.map (fun i => h.getD i 0)))
  let toMesh := uidx.map (fun i => e2m.getD i 0)
  let F := faces.length
  let num := (List.range N).map (fun n => toMesh.count n)
  { edges := u.map (fun x => (x / V, x % V))
    toMesh := toMesh
    faceToEdge := (List.range F).map (fun f =>
      (inv.getD f 0, inv.getD (F + f) 0, inv.getD (2 * F + f) 0))
    numEdges := num
    firstEdge := 0 :: cumsumFrom 0 num.dropLast }

/-- The permutation given by a stable sort; one of the possible results of `torch.sort`. -/
def stableSortIdx (h : List Int) : List Nat :=
  (List.range h.length).insertionSort (fun i j => h.getD i 0 ≤ h.getD j 0)

end P3D.Meshes
