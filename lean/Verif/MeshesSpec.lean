/-
Specification of `Meshes` (C05-C07): a batch is just a list of (vertices, faces) pairs; every view is
a function of that list.  Nothing here refers to caches.
-/
import Verif.Meshes
import Verif.StructUtilsProps

namespace P3D.Meshes

open P3D.StructUtils

/-- What is known about the vertex normals: computed from the geometry, given by the user, or
unspecified (after a scaling that does not preserve the computed normals the class may return
either the old or the new ones, see `scaleVerts_normals_stale`). -/
inductive NSpec (P : Type) where
  | computed
  | user (n : List P)
  | unspecified

/-- Abstract value of a `Meshes` object: the meshes, the contents of the padding of the padded views
(zeros / -1 unless the user supplied a padded tensor), and what is known about the normals. -/
structure Abs (P : Type) where
  verts : List (List P)
  faces : List (List Face)
  vpad : List (List P)
  fpad : List (List Face)
  normals : NSpec P

variable {P K A E L : Type}

namespace Abs

/-- Total number of vertices before mesh `i`. -/
def vOff (a : Abs P) (i : Nat) : Nat := ((a.verts.take i).map List.length).sum

/-- Packed vertices: the concatenation. -/
def vertsPacked (a : Abs P) : List P := a.verts.flatten

/-- Packed faces: faces of mesh `i` shifted by the number of vertices of the previous meshes. -/
def facesPackedAux (o : Nat) : List (List P) → List (List Face) → List Face
  | v :: vs, f :: fs => f.map (fun t => t.shift o) ++ facesPackedAux (o + v.length) vs fs
  | _, _ => []

def facesPacked (a : Abs P) : List Face := facesPackedAux 0 a.verts a.faces

/-- `i` repeated `n_i` times. -/
def meshIdx (l : List Nat) : List Nat :=
  (l.zipIdx.map (fun p => List.replicate p.1 p.2)).flatten

/-- Prefix sums. -/
def firsts (l : List Nat) : List Nat := (List.range l.length).map (fun k => (l.take k).sum)

def packed (a : Abs P) : PackedView P where
  verts := a.vertsPacked
  vertsToMesh := meshIdx (a.verts.map List.length)
  firstVert := firsts (a.verts.map List.length)
  faces := a.facesPacked
  facesToMesh := meshIdx (a.faces.map List.length)
  firstFace := firsts (a.faces.map List.length)

def vertsPadded (a : Abs P) : List (List P) := List.zipWith (· ++ ·) a.verts a.vpad
def facesPadded (a : Abs P) : List (List Face) := List.zipWith (· ++ ·) a.faces a.fpad

def edges (ops : Ops P K A E L) (a : Abs P) : E :=
  ops.edges a.verts.length a.vertsPacked.length a.facesPacked (meshIdx (a.faces.map List.length))

def areas (ops : Ops P K A E L) (a : Abs P) : A := ops.areas a.vertsPacked a.facesPacked

/-- Normals: the user's, if still remembered, else computed from the geometry. -/
def vnormals (ops : Ops P K A E L) (a : Abs P) : Option (List P) :=
  match a.normals with
  | .computed => some (ops.vnormals a.vertsPacked a.facesPacked)
  | .user n => some n
  | .unspecified => none

def lap (ops : Ops P K A E L) (a : Abs P) : L := ops.lap a.vertsPacked.length (a.edges ops)

def maxVerts (a : Abs P) : Nat := maxNat (a.verts.map List.length)
def maxFaces (a : Abs P) : Nat := maxNat (a.faces.map List.length)

/-- Indices in the flattened padded tensor of the packed vertices. -/
def padToPacked (a : Abs P) : List Nat :=
  ((a.verts.map List.length).zipIdx.map
    (fun p => (List.range p.1).map (fun j => j + p.2 * a.maxVerts))).flatten

/-- Well-formed non-empty batches. -/
structure WF (a : Abs P) : Prop where
  lenF : a.faces.length = a.verts.length
  lenVp : a.vpad.length = a.verts.length
  lenFp : a.fpad.length = a.verts.length
  nonempty : ∃ i, ∃ (h : i < a.verts.length), a.verts[i] ≠ [] ∧ a.faces[i]'(by omega) ≠ []
  facesReal : ∀ fs ∈ a.faces, ∀ f ∈ fs, Face.real f = true
  padReal : ∀ fs ∈ a.fpad, ∀ f ∈ fs, Face.real f = false
  vwidth : ∀ r ∈ a.vertsPadded, r.length = a.maxVerts

/-- A batch given by lists: zero / -1 padding, no user normals. -/
def ofLists (zero : P) (verts : List (List P)) (faces : List (List Face)) : Abs P where
  verts := verts
  faces := faces
  vpad := verts.map (fun v => List.replicate (maxNat (verts.map List.length) - v.length) zero)
  fpad := faces.map
    (fun f => List.replicate (maxNat (faces.map List.length) - f.length) (-1, -1, -1))
  normals := .computed

/-- Adding one vector to every vertex. -/
def translate (ops : Ops P K A E L) (t : P) (a : Abs P) : Abs P :=
  { a with verts := a.verts.map (fun v => v.map (fun p => ops.add p t)) }

/-- Cut a flat list into pieces of the sizes of a ragged list. -/
def reshapeLike {X Y : Type} : List (List X) → List Y → List (List Y)
  | [], _ => []
  | v :: vs, l => l.take v.length :: reshapeLike vs (l.drop v.length)

/-- Adding one offset per vertex; user normals are forgotten. -/
def offset (ops : Ops P K A E L) (d : List P) (a : Abs P) : Abs P :=
  { a with
    verts := List.zipWith (List.zipWith ops.add) a.verts (reshapeLike a.verts d)
    normals := .computed }

open Classical in
/-- Scaling mesh `i` by the `i`-th factor. -/
noncomputable def scale (ops : Ops P K A E L) (k : List K) (a : Abs P) : Abs P :=
  { a with
    verts := List.zipWith (fun c v => v.map (ops.smul c)) k a.verts
    normals := match a.normals with
      | .computed =>
        if ops.vnormals (List.zipWith (fun c v => v.map (ops.smul c)) k a.verts).flatten a.facesPacked
            = ops.vnormals a.vertsPacked a.facesPacked then .computed else .unspecified
      | n => n }

/-- Replacing the padded vertices. -/
def replacePadded (nv : List (List P)) (a : Abs P) : Abs P :=
  { a with
    verts := List.zipWith (fun r v => r.take v.length) nv a.verts
    vpad := List.zipWith (fun r v => r.drop v.length) nv a.verts
    normals := .computed }

end Abs

/-- A cache holds nothing or the right value. -/
def Coh {X : Type} (c : Option X) (v : X) : Prop := ∀ x, c = some x → x = v

/-- Representation invariant, all fields but the cached areas and normals. -/
structure Core (ops : Ops P K A E L) (a : Abs P) (s : State P A E L) : Prop where
  wf : a.WF
  hN : s.N = a.verts.length
  hV : s.V = a.maxVerts
  hF : s.F = a.maxFaces
  hvalid : s.valid.any id = true
  hnv : s.numVerts = a.verts.map List.length
  hnf : s.numFaces = a.faces.map List.length
  heq : s.equisized = true → allSame (a.verts.map List.length) = true ∧
    allSame (a.faces.map List.length) = true
  hvl : Coh s.vertsList a.verts
  hfl : Coh s.facesList a.faces
  hvp : Coh s.vertsPadded a.vertsPadded
  hfp : Coh s.facesPadded a.facesPadded
  hboth : s.vertsPadded.isSome = s.facesPadded.isSome
  hdata : s.vertsPadded = none → s.vertsList.isSome ∧ s.facesList.isSome ∧
    a.vpad = (Abs.ofLists ops.zero a.verts a.faces).vpad ∧
    a.fpad = (Abs.ofLists ops.zero a.verts a.faces).fpad
  hpk : Coh s.packed a.packed
  hpp : Coh s.padToPacked a.padToPacked
  hed : Coh s.edges (a.edges ops)
  hlap : Coh s.lap (a.lap ops)

/-- Representation invariant: the object `s` stands for the batch `a`. -/
structure Inv (ops : Ops P K A E L) (a : Abs P) (s : State P A E L) : Prop
    extends Core ops a s where
  har : Coh s.areas (a.areas ops)
  hvn : ∀ v, a.vnormals ops = some v → Coh s.vnormals v
  hun : ∀ n, a.normals = .user n → s.vnormals.isSome

end P3D.Meshes
