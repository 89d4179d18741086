/-
Model of the `Meshes` class (`pytorch3d/structures/meshes.py`) as a state record with lazily filled
caches.  Every accessor is a function `State → Except Err (value × State)` because it fills caches.

`P` = a vertex (row of 3 floats).  A face is a triple of integers.
Simplifications (also in DESIGN.md):
* textures, devices, dtypes are not modelled;
* the six packed tensors are set together by `_compute_packed` (and copied together), so they form
  one cache field; likewise the five edge tensors and the pair (areas, face normals);
* values only: aliasing between tensors of different objects is not modelled here
  (see `Verif/MeshAlias.lean`).
* the numerical functions on packed data (edges, areas/normals, vertex normals, Laplacian) are the
  fields of the parameter `Ops`, and are modelled in their own modules.
-/
import Verif.StructUtils
import Mathlib.Data.List.Dedup
import Mathlib.Data.List.Sort

namespace P3D.Meshes

open P3D.StructUtils

/-- A face: three vertex indices (`-1` marks padding). -/
abbrev Face := Int × Int × Int

/-- `f.gt(-1).all(1)` (`meshes.py:352`, and `:407` for padded faces). -/
def Face.real (f : Face) : Bool := decide (f.1 > -1) && (decide (f.2.1 > -1) && decide (f.2.2 > -1))

/-- Add a vertex offset to all three indices (`meshes.py:1033`). -/
def Face.shift (f : Face) (o : Nat) : Face := (f.1 + o, f.2.1 + o, f.2.2 + o)

/-- The operations on vertices and packed data that the class calls. -/
structure Ops (P K A E L : Type) where
  zero : P
  add : P → P → P
  smul : K → P → P
  /-- `mesh_face_areas_normals(verts_packed, faces_packed)` -/
  areas : List P → List Face → A
  /-- body of `_compute_vertex_normals`, `meshes.py:901-926` -/
  vnormals : List P → List Face → List P
  /-- body of `_compute_edges_packed`, `meshes.py:1066-1135`:
  batch size, number of packed vertices, packed faces, faces to mesh index -/
  edges : Nat → Nat → List Face → List Nat → E
  /-- `laplacian(verts_packed, edges_packed)`, depends on the vertices only through their number -/
  lap : Nat → E → L

/-- The packed tensors (`meshes.py:283-300`). -/
structure PackedView (P : Type) where
  verts : List P
  vertsToMesh : List Nat
  firstVert : List Nat
  faces : List Face
  facesToMesh : List Nat
  firstFace : List Nat
  deriving DecidableEq, Repr

/-- The attributes of a `Meshes` object (`meshes.py:266-338`). -/
structure State (P A E L : Type) where
  N : Nat
  V : Nat
  F : Nat
  valid : List Bool
  equisized : Bool
  vertsList : Option (List (List P))
  facesList : Option (List (List Face))
  vertsPadded : Option (List (List P))
  facesPadded : Option (List (List Face))
  numVerts : List Nat
  numFaces : List Nat
  packed : Option (PackedView P)
  padToPacked : Option (List Nat)
  edges : Option E
  areas : Option A
  vnormals : Option (List P)
  lap : Option L
  deriving DecidableEq, Repr

variable {P K A E L : Type}

/-- `meshes.py:528-536` `isempty`. -/
def isEmptyBatch (s : State P A E L) : Bool := s.N == 0 || s.valid.all (fun b => !b)

/-- `meshes.py:429-435`: the counts are reset to size-0 tensors for an empty batch. -/
def resetCounts (s : State P A E L) : State P A E L :=
  if isEmptyBatch s then { s with numVerts := [], numFaces := [] } else s

/-- `len(x.unique()) == 1` for a non-empty integer tensor. -/
def allSame : List Nat → Bool
  | [] => false
  | n :: ns => ns.all (fun k => k == n)

/-- `x.max()` of a tensor of counts (0 for the `_N == 0` case where the attribute keeps its
initial value 0). -/
def maxNat (l : List Nat) : Nat := l.foldl max 0

/-- Constructor from lists, `meshes.py:349-388` and `:429-435`. -/
def ofList (verts : List (List P)) (faces : List (List Face)) : State P A E L :=
  let fl := faces.map (fun f => f.filter Face.real)
  let nv := verts.map List.length
  let nf := fl.map List.length
  resetCounts {
    N := verts.length
    V := maxNat nv
    F := maxNat nf
    valid := List.zipWith (fun v f => decide (0 < v ∧ 0 < f)) nv nf
    equisized := allSame nv && allSame nf
    vertsList := some verts
    facesList := some fl
    vertsPadded := none
    facesPadded := none
    numVerts := nv
    numFaces := nf
    packed := none
    padToPacked := none
    edges := none
    areas := none
    vnormals := none
    lap := none }

/-- `(x[:, :-1] < x[:, 1:]).any()` for one row of booleans (`meshes.py:409`). -/
def hasRise : List Bool → Bool
  | a :: b :: l => (!a && b) || hasRise (b :: l)
  | _ => false

/-- Constructor from padded tensors, `meshes.py:390-422` and `:429-435`.
`width` is `verts.shape[1]`. -/
def ofPadded (width : Nat) (verts : List (List P)) (faces : List (List Face)) :
    Except Err (State P A E L) :=
  let notPad := faces.map (fun r => r.map Face.real)
  let nf := notPad.map (fun r => r.countP id)
  if notPad.any hasRise then .error .valueError
  else .ok (resetCounts {
    N := verts.length
    V := width
    F := maxNat nf
    valid := nf.map (fun n => decide (0 < n))
    equisized := allSame nf
    vertsList := none
    facesList := none
    vertsPadded := some verts
    facesPadded := some faces
    numVerts := List.replicate verts.length width
    numFaces := nf
    packed := none
    padToPacked := none
    edges := none
    areas := none
    vnormals := none
    lap := none })

/-- `meshes.py:451-480` `_set_verts_normals` with a list of per-mesh normals. -/
def setNormals (s : State P A E L) (normals : List (List P)) : Except Err (State P A E L) :=
  if normals.length ≠ s.N then .error .valueError
  else if (List.zipWith (fun (n : List P) k => n.length == k) normals s.numVerts).all id then
    .ok { s with vnormals := some normals.flatten }
  else .error .valueError

/-- `meshes.py:538-552` `verts_list`. -/
def getVertsList (s : State P A E L) : Except Err (List (List P) × State P A E L) :=
  match s.vertsList with
  | some l => .ok (l, s)
  | none =>
    match s.vertsPadded with
    | none => .error .assertionError
    | some p => do
      let l ← paddedToList p (some s.numVerts)
      .ok (l, { s with vertsList := some l })

/-- `meshes.py:554-568` `faces_list`. -/
def getFacesList (s : State P A E L) : Except Err (List (List Face) × State P A E L) :=
  match s.facesList with
  | some l => .ok (l, s)
  | none =>
    match s.facesPadded with
    | none => .error .assertionError
    | some p => do
      let l ← paddedToList p (some s.numFaces)
      .ok (l, { s with facesList := some l })

/-- `meshes.py:929-957` `_compute_padded`. -/
def computePadded (zero : P) (s : State P A E L) : Except Err (State P A E L) :=
  if s.vertsPadded.isSome && s.facesPadded.isSome then .ok s
  else do
    let (vl, s) ← getVertsList s
    let (fl, s) ← getFacesList s
    if isEmptyBatch s then
      .ok { s with
        facesPadded := some (List.replicate s.N [])
        vertsPadded := some (List.replicate s.N []) }
    else
      let fp ← listToPadded fl (some s.F) ((-1, -1, -1) : Face) s.equisized
      let vp ← listToPadded vl (some s.V) zero s.equisized
      .ok { s with facesPadded := some fp, vertsPadded := some vp }

/-- `meshes.py:647-655` `verts_padded`. -/
def getVertsPadded (zero : P) (s : State P A E L) :
    Except Err (Option (List (List P)) × State P A E L) := do
  let s ← computePadded zero s
  .ok (s.vertsPadded, s)

/-- `meshes.py:657-665` `faces_padded`. -/
def getFacesPadded (zero : P) (s : State P A E L) :
    Except Err (Option (List (List Face)) × State P A E L) := do
  let s ← computePadded zero s
  .ok (s.facesPadded, s)

/-- `meshes.py:960-1034` `_compute_packed`. -/
def computePacked (s : State P A E L) : Except Err (State P A E L) :=
  if s.packed.isSome then .ok s
  else do
    let (vl, s) ← getVertsList s
    let (fl, s) ← getFacesList s
    if isEmptyBatch s then
      .ok { s with
        packed := some { verts := [], vertsToMesh := [], firstVert := [], faces := [],
                         facesToMesh := [], firstFace := [] }
        numVerts := []
        numFaces := [] }
    else
      let pv ← listToPacked vl
      if s.numVerts ≠ pv.numItems then .error .valueError
      else
        let pf ← listToPacked fl
        if s.numFaces ≠ pf.numItems then .error .valueError
        else
          let off ← gather pv.firstIdx pf.toListIdx
          .ok { s with packed := some {
            verts := pv.packed
            vertsToMesh := pv.toListIdx
            firstVert := pv.firstIdx
            faces := List.zipWith Face.shift pf.packed off
            facesToMesh := pf.toListIdx
            firstFace := pf.firstIdx } }

/-- The packed accessors `verts_packed`, `verts_packed_to_mesh_idx`,
`mesh_to_verts_packed_first_idx`, `faces_packed`, ... (`meshes.py:570-645`). -/
def getPacked (s : State P A E L) : Except Err (Option (PackedView P) × State P A E L) := do
  let s ← computePacked s
  .ok (s.packed, s)

/-- `meshes.py:733-758` `verts_padded_to_packed_idx`. -/
def getPadToPacked (s : State P A E L) : List Nat × State P A E L :=
  match s.padToPacked with
  | some l => (l, s)
  | none =>
    let l := packedIdx s.V s.numVerts
    (l, { s with padToPacked := some l })

/-- `meshes.py:1036-1135` `_compute_edges_packed` with the accessors `:677-731`.
For an empty batch only two of the five tensors are set (`:1056-1063`) so nothing is cached as far
as the guard is concerned; the accessors of the other tensors return `None`. -/
def getEdges (ops : Ops P K A E L) (s : State P A E L) :
    Except Err (Option E × State P A E L) :=
  if s.edges.isSome && s.packed.isSome then .ok (s.edges, s)
  else if isEmptyBatch s then .ok (none, s)
  else do
    let s ← computePacked s
    match s.packed with
    | none => .error .assertionError
    | some p =>
      let e := ops.edges s.N p.verts.length p.faces p.facesToMesh
      .ok (some e, { s with edges := some e })

/-- `meshes.py:858-882` `_compute_face_areas_normals`. -/
def computeAreas (ops : Ops P K A E L) (refresh : Bool) (s : State P A E L) :
    Except Err (State P A E L) :=
  if !refresh && s.areas.isSome then .ok s
  else do
    let s ← computePacked s
    match s.packed with
    | none => .error .assertionError
    | some p => .ok { s with areas := some (ops.areas p.verts p.faces) }

/-- `faces_areas_packed` / `faces_normals_packed` (`meshes.py:805-813`, `:844-852`). -/
def getAreas (ops : Ops P K A E L) (s : State P A E L) : Except Err (Option A × State P A E L) := do
  let s ← computeAreas ops false s
  .ok (s.areas, s)

/-- `meshes.py:884-926` `_compute_vertex_normals`. -/
def computeVNormals (ops : Ops P K A E L) (refresh : Bool) (s : State P A E L) :
    Except Err (State P A E L) :=
  if !refresh && s.vnormals.isSome then .ok s
  else if isEmptyBatch s then .ok { s with vnormals := some (List.replicate s.N ops.zero) }
  else do
    let s ← computePacked s
    match s.packed with
    | none => .error .assertionError
    | some p => .ok { s with vnormals := some (ops.vnormals p.verts p.faces) }

/-- `verts_normals_packed` (`meshes.py:766-774`). -/
def getVNormals (ops : Ops P K A E L) (s : State P A E L) :
    Except Err (Option (List P) × State P A E L) := do
  let s ← computeVNormals ops false s
  .ok (s.vnormals, s)

/-- `meshes.py:1137-1164` `_compute_laplacian_packed` (non-empty batches; for an empty batch the
result is a 0x0 matrix, given here as `none`). -/
def getLap (ops : Ops P K A E L) (s : State P A E L) : Except Err (Option L × State P A E L) :=
  if s.lap.isSome then .ok (s.lap, s)
  else if isEmptyBatch s then .ok (none, s)
  else do
    let s ← computePacked s
    let (e, s) ← getEdges ops s
    match s.packed, e with
    | some p, some e =>
      let l := ops.lap p.verts.length e
      .ok (some l, { s with lap := some l })
    | _, _ => .error .assertionError

/-- In-place write of the new vertices into the padded tensor (`meshes.py:1326-1329`,
`:1380-1383`): row `i` gets its first `len` entries overwritten. -/
def overwritePadded (padded verts : List (List P)) : List (List P) :=
  List.zipWith (fun row v => v ++ row.drop v.length) padded verts

/-- The argument of `offset_verts_`: one vector for all vertices, or one per packed vertex. -/
inductive Offset (P : Type) where
  | vec (v : P)
  | full (l : List P)

/-- `meshes.py:1333-1337` / `:1386-1391`: refresh of cached areas and face normals. -/
def refreshAreas (ops : Ops P K A E L) (upd : Bool) (s : State P A E L) :
    Except Err (State P A E L) :=
  if upd && s.areas.isSome then computeAreas ops true s else .ok s

/-- `meshes.py:1338-1339`: refresh of cached vertex normals. -/
def refreshVNormals (ops : Ops P K A E L) (upd : Bool) (s : State P A E L) :
    Except Err (State P A E L) :=
  if upd && s.vnormals.isSome then computeVNormals ops true s else .ok s

/-- `meshes.py:1295-1341` `offset_verts_`. -/
def offsetVerts (ops : Ops P K A E L) (d : Offset P) (s : State P A E L) :
    Except Err (State P A E L) := do
  let s ← computePacked s
  match s.packed with
  | none => .error .assertionError
  | some p =>
    let (upd, dl) := match d with
      | .vec v => (false, List.replicate p.verts.length v)
      | .full l => (true, l)
    if dl.length ≠ p.verts.length then .error .valueError
    else
      let nv := List.zipWith ops.add p.verts dl
      let nl ← packedToList nv s.numVerts
      let s := { s with
        packed := some { p with verts := nv }
        vertsList := some nl
        vertsPadded := s.vertsPadded.map (fun vp => overwritePadded vp nl) }
      let s ← refreshAreas ops upd s
      refreshVNormals ops upd s

/-- `meshes.py:1357-1392` `scale_verts_` with one factor per mesh (a Python scalar is expanded to
`N` copies, `:1368-1369`).  A missing factor is an `IndexError`; extra factors are ignored. -/
def scaleVerts (ops : Ops P K A E L) (scale : List K) (s : State P A E L) :
    Except Err (State P A E L) := do
  let (vl, s) ← getVertsList s
  if scale.length < vl.length then .error .indexError
  else
    let nl := List.zipWith (fun k v => v.map (ops.smul k)) scale vl
    let s := { s with
      vertsList := some nl
      packed := s.packed.map (fun p => { p with verts := nl.flatten })
      vertsPadded := s.vertsPadded.map (fun vp => overwritePadded vp nl) }
    refreshAreas ops true s

/-- `meshes.py:1407-1499` `update_padded`: returns (new object, self). -/
def updatePadded (ops : Ops P K A E L) (newVerts : List (List P)) (s : State P A E L) :
    Except Err (State P A E L × State P A E L) :=
  if newVerts.length ≠ s.N ∨ ∃ r ∈ newVerts, r.length ≠ s.V then .error .valueError
  else do
    let (fp, s) ← getFacesPadded ops.zero s
    match fp with
    | none => .error .assertionError
    | some fp =>
      let (new : State P A E L) ← ofPadded s.V newVerts fp
      if new.N ≠ s.N ∨ new.V ≠ s.V ∨ new.F ≠ s.F then .error .valueError
      else
        let new := { new with
          equisized := s.equisized
          numVerts := s.numVerts
          numFaces := s.numFaces
          valid := s.valid
          facesList := s.facesList }
        match s.packed with
        | some p => do
          let (idx, s) := getPadToPacked s
          let nv ← gather newVerts.flatten idx
          let new := { new with
            packed := some { p with verts := nv }
            padToPacked := some idx
            edges := s.edges
            lap := s.lap }
          .ok (new, s)
        | none => .ok ({ new with edges := s.edges, lap := s.lap }, s)

/-- `meshes.py:1166-1186` `clone` (also `detach`): new object built from the lists, then every
cached tensor copied; `equisized` is not a tensor so it keeps the constructor's value. -/
def clone (s : State P A E L) : Except Err (State P A E L × State P A E L) := do
  let (vl, s) ← getVertsList s
  let (fl, s) ← getFacesList s
  let c : State P A E L := ofList vl fl
  .ok ({ s with
    N := c.N, V := c.V, F := c.F, equisized := c.equisized
    vertsList := c.vertsList, facesList := c.facesList }, s)

/-- Python indexing of a list of length `n` by an integer. -/
def pyIndex (n : Nat) (i : Int) : Option Nat :=
  if 0 ≤ i then (if i < n then some i.toNat else none)
  else (if 0 ≤ i + n then some (i + n).toNat else none)

/-- `[l[i] for i in index]` -/
def pick {X : Type} (l : List X) (index : List Int) : Except Err (List X) :=
  index.mapM (fun i =>
    match (pyIndex l.length i).bind (fun k => l[k]?) with
    | some x => .ok x
    | none => .error .indexError)

/-- Forms of `index` accepted by `__getitem__` (`meshes.py:485-526`); `ints` covers a list of ints
and a LongTensor, `slice a b` the slice `a:b` with `0 ≤ a`, `0 ≤ b`. -/
inductive Index where
  | int (i : Int)
  | ints (l : List Int)
  | mask (l : List Bool)
  | slice (a b : Nat)

/-- `index.nonzero().squeeze(1).tolist()`. -/
def nonzero (l : List Bool) : List Int :=
  (l.zipIdx.filter (fun p => p.1)).map (fun p => (p.2 : Int))

/-- The elements selected from a list. -/
def Index.select {X : Type} (ix : Index) (l : List X) : Except Err (List X) :=
  match ix with
  | .int i => pick l [i]
  | .ints is => pick l is
  | .mask m => pick l (nonzero m)
  | .slice a b => .ok ((l.take b).drop a)

/-- `meshes.py:485-526` `__getitem__`: (selected object, self). -/
def getItem (ix : Index) (s : State P A E L) :
    Except Err (State P A E L × State P A E L) := do
  let (vl, s) ← getVertsList s
  let (fl, s) ← getFacesList s
  let v ← ix.select vl
  let f ← ix.select fl
  .ok (ofList v f, s)

/-- `meshes.py:1274-1293` `split`. -/
def split (sizes : List Nat) (s : State P A E L) :
    Except Err (List (State P A E L) × State P A E L) :=
  go 0 sizes s
where
  go (cur : Nat) : List Nat → State P A E L → Except Err (List (State P A E L) × State P A E L)
    | [], s => .ok ([], s)
    | n :: ns, s => do
      let (m, s) ← getItem (.slice cur (cur + n)) s
      let (ms, s) ← go (cur + n) ns s
      .ok (m :: ms, s)

/-- `meshes.py:1521-1544` `extend`. -/
def extend (n : Nat) (s : State P A E L) : Except Err (State P A E L × State P A E L) :=
  if n = 0 then .error .valueError
  else do
    let (vl, s) ← getVertsList s
    let (fl, s) ← getFacesList s
    let pairs := List.zip vl fl
    .ok (ofList (pairs.flatMap (fun p => List.replicate n p.1))
                (pairs.flatMap (fun p => List.replicate n p.2)), s)

/-- `meshes.py:1672-1718` `join_meshes_as_batch` (without textures). -/
def joinBatch (ms : List (State P A E L)) : Except Err (State P A E L) := do
  let vs ← ms.mapM (fun m => (getVertsList m).map Prod.fst)
  let fs ← ms.mapM (fun m => (getFacesList m).map Prod.fst)
  .ok (ofList vs.flatten fs.flatten)

/-- `meshes.py:1721-1767` `join_meshes_as_scene` of one Meshes object (without textures). -/
def joinScene (s : State P A E L) : Except Err (State P A E L) :=
  if s.N = 1 then .ok s
  else do
    let s ← computePacked s
    match s.packed with
    | none => .error .assertionError
    | some p => ofPadded p.verts.length [p.verts] [p.faces]

/-- `torch.unique(x, sorted=True)` of integers. -/
def uniqueInts (l : List Int) : List Int := l.dedup.insertionSort (· ≤ ·)

/-- `verts[ids]` with non-negative ids. -/
def gatherInt {X : Type} (l : List X) (ids : List Int) : Except Err (List X) :=
  ids.mapM (fun i =>
    match (pyIndex l.length i).bind (fun k => l[k]?) with
    | some x => .ok x
    | none => .error .indexError)

/-- Body of the inner loop of `submeshes`, `meshes.py:1633-1660`: (vertices, faces) of one
submesh. -/
def submesh (verts : List P) (faces : List Face) (ids : List Int) :
    Except Err (List P × List Face) := do
  let keep ← gatherInt faces ids
  let u := uniqueInts (keep.flatMap (fun f => [f.1, f.2.1, f.2.2]))
  let sv ← gatherInt verts u
  .ok (sv, keep.map (fun f => ((u.idxOf f.1 : Int), (u.idxOf f.2.1 : Int), (u.idxOf f.2.2 : Int))))

/-- `meshes.py:1563-1670` `submeshes` (without textures): (new object, self). -/
def submeshes (faceIdx : List (List (List Int))) (s : State P A E L) :
    Except Err (State P A E L × State P A E L) :=
  if faceIdx.length ≠ s.N then .error .valueError
  else do
    let (fl, s) ← getFacesList s
    let (vl, s) ← getVertsList s
    let subs ← (List.zip faceIdx (List.zip fl vl)).mapM (fun t =>
      t.1.mapM (fun ids => submesh t.2.2 t.2.1 ids))
    .ok (ofList (subs.flatten.map Prod.fst) (subs.flatten.map Prod.snd), s)

/-- `meshes.py:1251-1272` `get_mesh_verts_faces`: note the bound check `index > self._N`. -/
def getMeshVertsFaces (index : Int) (s : State P A E L) :
    Except Err ((List P × List Face) × State P A E L) :=
  if index < 0 ∨ index > s.N then .error .valueError
  else do
    let (vl, s) ← getVertsList s
    let (fl, s) ← getFacesList s
    match vl[index.toNat]?, fl[index.toNat]? with
    | some v, some f => .ok ((v, f), s)
    | _, _ => .error .indexError

end P3D.Meshes
