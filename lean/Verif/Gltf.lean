/-
`io/experimental_gltf_io.py`: reading and writing GLB files.  Bytes are characters below 256, as in `PlyIo`.
The JSON text, PNG images, base64 and the bits of float32 numbers go through the functions of a `Codec`; nothing is
assumed of them except where a theorem says so.  Names of nodes and accessors, `min`, `max`, `target`, samplers and other
entries of the JSON that the loader never reads are left out.  Indices in the JSON are natural numbers (a negative one
would count from the end).  All tensors are on the CPU and of type float32.
-/
import Verif.PlyBin
import Verif.Transform3dProps
import Verif.QuaternionProps

set_option linter.unusedSectionVars false
set_option linter.unusedSimpArgs false
set_option linter.unusedVariables false

namespace P3D.Gltf
open Text Ply

/-- Exceptions; `key` also stands for the AttributeError of `None.startswith`, `unbound` for UnboundLocalError. -/
inductive Err | value | notImpl | struct | key | index | assertion | json | unbound | transform
  deriving DecidableEq, Repr

/-! ### The JSON part -/

/-- The types of `_ELEMENT_SHAPES`, lines 97-105. -/
inductive ET | scalar | vec2 | vec3 | vec4 | mat2 | mat3 | mat4
  deriving DecidableEq, Repr

/-- `np.prod(element_shape)`. -/
def ET.count : ET → Nat
  | .scalar => 1 | .vec2 => 2 | .vec3 => 3 | .vec4 => 4 | .mat2 => 4 | .mat3 => 9 | .mat4 => 16

/-- The side of a matrix. -/
def ET.side : ET → Option Nat
  | .mat2 => some 2 | .mat3 => some 3 | .mat4 => some 4 | _ => none

/-- `_ITEM_TYPES`, lines 86-93. -/
def itemType : Nat → Option Ty
  | 5120 => some .i8
  | 5121 => some .u8
  | 5122 => some .i16
  | 5123 => some .u16
  | 5125 => some .u32
  | 5126 => some .f32
  | _ => none

structure Accessor where
  bufferView : Option Nat
  byteOffset : Nat := 0
  componentType : Nat
  count : Nat
  type : ET
  sparse : Bool := false
  deriving DecidableEq, Repr

/-- A buffer view; an absent `byteStride` is 0, line 298 (but see `hasStride`, line 232). -/
structure BufferView where
  buffer : Nat
  byteLength : Nat
  byteOffset : Nat := 0
  byteStride : Nat := 0
  hasStride : Bool := false
  deriving DecidableEq, Repr

structure Buffer where
  byteLength : Nat
  uri : Option Str := none
  deriving DecidableEq, Repr

structure Primitive where
  position : Nat
  color : Option Nat := none
  texcoord : Option Nat := none
  indices : Option Nat := none
  mode : Nat := 4
  material : Nat := 0
  deriving DecidableEq, Repr

structure MeshJson where
  name : Option Str := none
  primitives : List Primitive
  deriving DecidableEq, Repr

/-- The part of a node that `_make_node_transform` and `load` read; `rotation` as in the file: x, y, z, w. -/
structure Node (K : Type) where
  matrix : Option (List K) := none
  scale : Option (V3 K) := none
  rotation : Option (K × K × K × K) := none
  translation : Option (V3 K) := none
  mesh : Option Nat := none
  children : List Nat := []
  deriving DecidableEq

/-- `pbrMetallicRoughness`. -/
structure Pbr (K : Type) where
  baseColorTexture : Option Nat := none
  baseColorFactor : Option (List K) := none
  deriving DecidableEq

structure Doc (K : Type) where
  scene : Option Nat
  scenes : List (List Nat)
  nodes : List (Node K) := []
  meshes : List MeshJson := []
  accessors : List Accessor := []
  bufferViews : List BufferView := []
  buffers : List Buffer := []
  /-- `materials`, by their `pbrMetallicRoughness`. -/
  materials : List (Option (Pbr K)) := []
  /-- `textures`, by their `source`. -/
  textures : List Nat := []
  /-- `images`, by their `bufferView`. -/
  images : List Nat := []
  deriving DecidableEq

/-- Rows, columns, channels. -/
abbrev Img (α : Type) := List (List (List α))

/-- The libraries: JSON, base64, PNG (with a flag: is the image of 8 bits), float32 numbers. -/
structure Codec (K : Type) where
  dumps : Doc K → Str
  loads : Str → Except Err (Doc K)
  b64 : Str → Except Err Str
  png : Img Nat → Str
  unpng : Str → Except Err (Bool × Img K)
  enc : K → Nat
  dec : Nat → K
  /-- `astype(np.int64)` of a float32. -/
  toInt : Nat → Int

/-! ### Container -/

/-- `_GLTF_MAGIC`, `_JSON_CHUNK_TYPE`, `_BINARY_CHUNK_TYPE`, lines 59-61. -/
def magic : Nat := 0x46546C67
def jsonType : Nat := 0x4E4F534A
def binType : Nat := 0x004E4942

/-- `_DATA_URI_PREFIX`, line 62. -/
def uriPrefix : Str := "data:application/octet-stream;base64,".toList

/-- An integer of 4 bytes at a place of the stream. -/
def u32At (i : Nat) (s : Str) : Nat := leNat ((s.drop i).take 4)

section
variable {K : Type}

/-- `_read_header`, lines 131-138; the inner `none` is another magic number. -/
def readHeader (s : Str) : Except Err (Option (Nat × Nat)) :=
  if s.length < 12 then .error .struct
  else .ok (if u32At 0 s ≠ magic then none else some (u32At 4 s, u32At 8 s))

/-- The loop of `_read_chunks`, lines 151-162: position, rest of the stream, chunks found; every round takes at least
8 bytes, so the length of the stream is enough fuel.  `none` is an unsupported chunk. -/
def chunkLoop (C : Codec K) (length : Nat) : Nat → Nat → Str → Option (Doc K) → Option Str →
    Except Err (Option (Option (Doc K) × Option Str))
  | 0, pos, _, j, b => if pos < length then .error .struct else .ok (some (j, b))
  | fuel + 1, pos, s, j, b =>
    if pos < length then
      if s.length < 8 then .error .struct
      else
        let n := u32At 0 s
        let data := (s.drop 8).take n
        let rest := s.drop (8 + n)
        let pos' := pos + 8 + data.length
        if u32At 4 s = jsonType then
          match C.loads data with
          | .error e => .error e
          | .ok d => chunkLoop C length fuel pos' rest (some d) b
        else if u32At 4 s = binType then chunkLoop C length fuel pos' rest j (some data)
        else .ok none
    else .ok (some (j, b))

/-- `_read_chunks`, lines 141-172. -/
def readChunks (C : Codec K) (length : Nat) (s : Str) : Except Err (Option (Doc K × Str)) :=
  match chunkLoop C length s.length 12 s none none with
  | .error e => .error e
  | .ok none => .ok none
  | .ok (some (none, _)) => .error .value
  | .ok (some (some _, none)) => .error .assertion
  | .ok (some (some d, some b)) => .ok (some (d, b))

/-- `_GLTFLoader.__init__`, lines 217-243; the inner `none` leaves the loader without data, line 229. -/
def openFile (C : Codec K) (s : Str) : Except Err (Option (Doc K × Option Str)) :=
  match readHeader s with
  | .error e => .error e
  | .ok none => match C.loads s with
    | .error e => .error e
    | .ok d => .ok (some (d, none))
  | .ok (some (version, length)) =>
    if version ≠ 2 then .ok none
    else match readChunks C length (s.drop 12) with
      | .error e => .error e
      | .ok none => .error .value
      | .ok (some (d, b)) => .ok (some (d, some b))

/-! ### Binary data -/

/-- `get_binary_data`, lines 369-385. -/
def getBinary (C : Codec K) (d : Doc K) (glb : Option Str) (i : Nat) : Except Err Str :=
  match d.buffers[i]? with
  | none => .error .index
  | some b =>
    match (if i = 0 then glb else none) with
    | some s => .ok s
    | none =>
      match b.uri with
      | none => .error .key
      | some u => if uriPrefix.isPrefixOf u then C.b64 (u.drop uriPrefix.length) else .error .notImpl

/-- The transpose of line 347. -/
def order (e : ET) (l : List Val) : List Val :=
  match e.side with
  | none => l
  | some n => (List.range (n * n)).map fun j => l.getD ((j % n) * n + j / n) default

/-- One element of the array: the items at the beginning of its bytes. -/
def element (t : Ty) (e : ET) (s : Str) : List Val :=
  order e ((chunks t.size e.count s).map fun b => value t (leNat b))

/-- Lines 322-347.  The view as another data type raises if the number of bytes is not divisible. -/
def viewData (bin : Str) (a : Accessor) (v : BufferView) (t : Ty) : Except Err (List (List Val)) :=
  let es := t.size * a.type.count
  let stride := if v.byteStride = 0 then es else v.byteStride
  if stride < es then .error .value
  else
    let off := a.byteOffset + v.byteOffset
    if off % t.size ≠ 0 then .error .value
    else
      let s := (bin.drop off).take (a.count * stride)
      if s.length % stride ≠ 0 then .error .value
      else .ok ((chunks stride (s.length / stride) s).map (element t a.type))

/-- `_access_data`, lines 272-349. -/
def accessData (C : Codec K) (d : Doc K) (glb : Option Str) (i : Nat) : Except Err (List (List Val)) :=
  match d.accessors[i]? with
  | none => .error .index
  | some a =>
    match a.bufferView with
    | none => .error .notImpl
    | some bv =>
      if a.sparse = true then .error .notImpl
      else
        match d.bufferViews[bv]? with
        | none => .error .index
        | some v =>
          if (v.byteStride ≠ 0 ∧ v.byteStride < 4) ∨ 252 < v.byteStride then .error .value
          else
            match itemType a.componentType with
            | none => .error .key
            | some t =>
              if v.byteLength < a.count * a.type.count * t.size then .error .value
              else
                match d.buffers[v.buffer]? with
                | none => .error .index
                | some b =>
                  match getBinary C d glb v.buffer with
                  | .error e => .error e
                  | .ok bin => if bin.length < b.byteLength then .error .value else viewData bin a v t

variable [Field K]

/-- A number of an array as float32. -/
def num (C : Codec K) : Val → K
  | .int z => z
  | .f32 b => C.dec b
  | .f64 b => C.dec b

def valInt (C : Codec K) : Val → Int
  | .int z => z
  | .f32 b => C.toInt b
  | .f64 b => C.toInt b

/-- `_get_primitive_attribute` with `dtype = np.float32`, the only way it is called, lines 351-367. -/
def attr (C : Codec K) (d : Doc K) (glb : Option Str) (key : Option Nat) : Except Err (Option (List (List K))) :=
  match key with
  | none => .ok none
  | some i =>
    match accessData C d glb i with
    | .error e => .error e
    | .ok l => .ok (some (l.map (·.map (num C))))

/-- Rows of three. -/
def threes {α : Type} : List α → Option (List (V3 α))
  | [] => some []
  | a :: b :: c :: l => (threes l).map (⟨a, b, c⟩ :: ·)
  | _ => none

def toV3 {α : Type} : List α → Option (V3 α)
  | [a, b, c] => some ⟨a, b, c⟩
  | _ => none

/-! ### Textures -/

/-- Textures of a mesh, for `Tex.uv`: map, `faces_uvs`, `verts_uvs`. -/
inductive Tex (K : Type)
  | vertex (feats : List (List K))
  | uv (map : Img K) (facesUvs : List (V3 Int)) (vertsUvs : List (K × K))
  deriving DecidableEq

structure Mesh (K : Type) where
  verts : List (V3 K)
  faces : List (V3 Int)
  tex : Option (Tex K) := none
  deriving DecidableEq

/-- `_access_image` and `_get_texture_map_image`, lines 224-270; images of shape (H, W, C). -/
def image (C : Codec K) (d : Doc K) (glb : Option Str) (i : Nat) : Except Err (Img K) :=
  match d.images[i]? with
  | none => .error .index
  | some bv =>
    match d.bufferViews[bv]? with
    | none => .error .index
    | some v =>
      if v.hasStride = true then .error .notImpl
      else
        match getBinary C d glb v.buffer with
        | .error e => .error e
        | .ok bin =>
          match C.unpng ((bin.drop v.byteOffset).take v.byteLength) with
          | .error e => .error e
          | .ok (u8, im) => .ok (im.map (·.map fun px => (px.take 3).map fun x => if u8 then x / 255 else x))

/-- A row of `verts_uvs`: line 407. -/
def uvRow : List K → Except Err (K × K)
  | [u, v] => .ok (u, 1 - v)
  | _ => .error .value

/-- The map, lines 409-427. -/
def texMap (C : Codec K) (d : Doc K) (glb : Option Str) (p : Primitive) : Except Err (Img K) :=
  match d.materials[p.material]? with
  | none => .error .index
  | some none => .error .key
  | some (some m) =>
    match m.baseColorTexture with
    | some t =>
      match d.textures[t]? with
      | none => .error .index
      | some i => image C d glb i
    | none =>
      match m.baseColorFactor with
      | some c => .ok [[c.take 3]]
      | none => .error .unbound

/-- `get_texture_for_mesh`, lines 387-437. -/
def texture (C : Codec K) (d : Doc K) (glb : Option Str) (p : Primitive) (faces : List (V3 Int)) :
    Except Err (Option (Tex K)) :=
  match attr C d glb p.color with
  | .error e => .error e
  | .ok (some f) => .ok (some (.vertex f))
  | .ok none =>
    match attr C d glb p.texcoord with
    | .error e => .error e
    | .ok none => .ok none
    | .ok (some l) =>
      match l.mapM uvRow with
      | .error e => .error e
      | .ok uvs =>
        match texMap C d glb p with
        | .error e => .error e
        | .ok im => .ok (some (.uv im faces uvs))

/-- The check of the `Meshes` constructor, structures/meshes.py:436-439. -/
def texOk (V : Nat) : Option (Tex K) → Bool
  | some (.vertex f) => f.length == V
  | _ => true

/-! ### Nodes -/

open T3d

/-- `_make_node_transform`, lines 175-213. -/
def nodeTransform (n : Node K) : Except Err (T3 K) :=
  match n.matrix with
  | some a =>
    if a.length = 16 then .ok (.mk .base .f32 [Matrix.of fun i j => a.getD (i.val + 4 * j.val) 0] [])
    else .error .value
  | none =>
    .ok (compose (.mk .base .f32 [1] [])
      ((n.scale.map fun v => (.mk .scale .f32 [scaleMat v] [] : T3 K)).toList
        ++ (n.rotation.map fun q =>
            (.mk .rotate .f32 [rotateMat (Rot.quatToMat ⟨-q.2.2.2, q.1, q.2.1, q.2.2.1⟩)] [] : T3 K)).toList
        ++ (n.translation.map fun v => (.mk .translate .f32 [translateMat v] [] : T3 K)).toList))

variable [LinearOrder K]

/-- `mesh_transform.transform_points(positions)`, line 494, for rows of three numbers. -/
def place (T : T3 K) (rows : List (List K)) : Except Err (List (V3 K)) :=
  match rows.mapM toV3 with
  | none => .error .transform
  | some ps =>
    match transformPoints T none (.single ps) with
    | .ok (.single l) => .ok l
    | _ => .error .transform

/-- Lines 500-505. -/
def faceIndices (C : Codec K) (d : Doc K) (glb : Option Str) (p : Primitive) (V : Nat) : Except Err (List (V3 Int)) :=
  match p.indices with
  | some i =>
    match accessData C d glb i with
    | .error e => .error e
    | .ok l => match threes (l.flatten.map (valInt C)) with
      | none => .error .value
      | some f => .ok f
  | none => match threes ((List.range V).map fun i => (i : Int)) with
      | none => .error .value
      | some f => .ok f

/-- One primitive, lines 487-515. -/
def loadPrim (C : Codec K) (d : Doc K) (glb : Option Str) (tex : Bool) (T : T3 K) (p : Primitive) :
    Except Err (Mesh K) :=
  match accessData C d glb p.position with
  | .error e => .error e
  | .ok rows =>
    match place T (rows.map (·.map (num C))) with
    | .error e => .error e
    | .ok verts =>
      if p.mode ≠ 4 then .error .notImpl
      else
        match faceIndices C d glb p verts.length with
        | .error e => .error e
        | .ok faces =>
          match (if tex then texture C d glb p faces else .ok none) with
          | .error e => .error e
          | .ok t => if texOk verts.length t then .ok ⟨verts, faces, t⟩ else .error .value

/-- What one round of the loop adds: meshes with names, and children with their parent's transform. -/
abbrev Visit (K : Type) := T3 K × Nat → Except Err (List (Option Str × Mesh K) × List (T3 K × Nat))

/-- Lines 474-524. -/
def visit (C : Codec K) (d : Doc K) (glb : Option Str) (tex : Bool) : Visit K := fun x =>
  match d.nodes[x.2]? with
  | none => .error .index
  | some n =>
    match nodeTransform n with
    | .error e => .error e
    | .ok t =>
      let cur := compose t [x.1]
      let kids := n.children.map fun c => (cur, c)
      match n.mesh with
      | none => .ok ([], kids)
      | some mi =>
        match d.meshes[mi]? with
        | none => .error .index
        | some m =>
          match m.primitives.mapM (loadPrim C d glb tex cur) with
          | .error e => .error e
          | .ok ms => .ok (ms.map fun x => (m.name, x), kids)

/-- The loop over the queue, lines 471-526; `none` is a loop that has not ended after `fuel` rounds. -/
def queueLoop (f : Visit K) : Nat → List (T3 K × Nat) → List (Option Str × Mesh K) →
    Except Err (Option (List (Option Str × Mesh K)))
  | _, [], acc => .ok (some acc)
  | 0, _ :: _, _ => .ok none
  | fuel + 1, x :: q, acc =>
    match f x with
    | .error e => .error e
    | .ok (out, kids) => queueLoop f fuel (q ++ kids) (acc ++ out)

/-- `Transform3d()`. -/
def identity : T3 K := .mk .base .f32 [1] []

/-- `_GLTFLoader.load`, lines 439-528. -/
def load (C : Codec K) (d : Doc K) (glb : Option Str) (tex : Bool) (fuel : Nat) :
    Except Err (Option (List (Option Str × Mesh K))) :=
  match d.scene with
  | none => .error .value
  | some i =>
    match d.scenes[i]? with
    | none => .error .index
    | some roots => queueLoop (visit C d glb tex) fuel (roots.map fun n => (identity, n)) []

/-- `load_meshes`, lines 531-552. -/
def loadMeshes (C : Codec K) (s : Str) (tex : Bool) (fuel : Nat) : Except Err (Option (List (Option Str × Mesh K))) :=
  match openFile C s with
  | .error e => .error e
  | .ok none => .error .value
  | .ok (some (d, glb)) => load C d glb tex fuel

/-! ### Writing -/

variable [FloorRing K]

/-- `(x * 255.0).astype(np.uint8)`, line 716; for numbers outside of [0, 256/255) the result depends on the machine. -/
def quant (x : K) : Nat := (⌊x * 255⌋ % 256).toNat

/-- The bytes of a float32. -/
def fbytes (C : Codec K) (x : K) : Str := leBytes 4 (C.enc x)

/-- `verts_packed()` as bytes. -/
def posBytes (C : Codec K) (l : List (V3 K)) : Str :=
  (l.map fun v => fbytes C v.x ++ fbytes C v.y ++ fbytes C v.z).flatten

/-- An index as `np.uint16`, lines 650-656. -/
def idx16 (i : Int) : Nat := (i % 65536).toNat

def idxBytes (l : List (V3 Int)) : Str :=
  (l.map fun f => leBytes 2 (idx16 f.x) ++ leBytes 2 (idx16 f.y) ++ leBytes 2 (idx16 f.z)).flatten

def featBytes (C : Codec K) (l : List (List K)) : Str := (l.map fun r => (r.map (fbytes C)).flatten).flatten

/-- Lines 628-632, the second coordinate turned around. -/
def uvBytes (C : Codec K) (l : List (K × K)) : Str := (l.map fun r => fbytes C r.1 ++ fbytes C (1 - r.2)).flatten

/-- Number of bytes that the JSON announces for the texture (the count times 12 or 8), and those that are written. -/
def texPart (C : Codec K) : Option (Tex K) → Nat × Str
  | none => (0, [])
  | some (.vertex f) => (f.length * 12, featBytes C f)
  | some (.uv _ _ u) => (u.length * 8, uvBytes C u)

/-- `_write_image_buffer`, lines 713-722. -/
def imgPart (C : Codec K) : Option (Tex K) → Str
  | some (.uv m _ _) => C.png (m.map (·.map (·.map quant)))
  | _ => []

/-- `np.min` of an array without rows raises ValueError, lines 620-661. -/
def emptyData (m : Mesh K) : Bool :=
  m.verts.isEmpty || m.faces.isEmpty ||
    match m.tex with
    | none => false
    | some (.vertex f) => f.isEmpty
    | some (.uv _ _ u) => u.isEmpty

/-- The JSON written for a mesh, lines 556-612, 614-735 and 737-783. -/
def docOf (C : Codec K) (m : Mesh K) : Doc K :=
  let V := m.verts.length
  let F := m.faces.length
  let texAcc : List Accessor := match m.tex with
    | none => []
    | some (.vertex f) => [{ bufferView := some 2, componentType := 5126, count := f.length, type := .vec3 }]
    | some (.uv _ _ u) => [{ bufferView := some 2, componentType := 5126, count := u.length, type := .vec2 }]
  let off2 := V * 12 + F * 6
  let off3 := off2 + (texPart C m.tex).1
  let texView : List BufferView := match m.tex with
    | none => []
    | some (.vertex f) => [{ buffer := 0, byteLength := f.length * 12, byteOffset := off2, byteStride := 12, hasStride := true }]
    | some (.uv _ _ u) => [{ buffer := 0, byteLength := u.length * 8, byteOffset := off2, byteStride := 8, hasStride := true },
        { buffer := 0, byteLength := (imgPart C m.tex).length, byteOffset := off3 }]
  { scene := some 0
    scenes := [[0]]
    nodes := [{ mesh := some 0 }]
    meshes := [{ name := some "Node-Mesh".toList, primitives := [
      match m.tex with
      | none => { position := 0, indices := some 1 }
      | some (.vertex _) => { position := 0, color := some 2, indices := some 1 }
      | some (.uv _ _ _) => { position := 0, texcoord := some 2, indices := some 1, material := 0 }] }]
    accessors := [{ bufferView := some 0, componentType := 5126, count := V, type := .vec3 },
      { bufferView := some 1, componentType := 5123, count := F * 3, type := .scalar }] ++ texAcc
    bufferViews := [{ buffer := 0, byteLength := V * 12, byteOffset := 0, byteStride := 12, hasStride := true },
      { buffer := 0, byteLength := F * 6, byteOffset := V * 12 }] ++ texView
    buffers := [{ byteLength := off3 + (imgPart C m.tex).length }]
    materials := [some { baseColorTexture := some 0, baseColorFactor := some [1, 1, 1, 1] }]
    textures := [0]
    images := match m.tex with
      | some (.uv _ _ _) => [3]
      | _ => [] }

/-- `byte_offset` at the end of `save`. -/
def announced (C : Codec K) (m : Mesh K) : Nat :=
  m.verts.length * 12 + m.faces.length * 6 + (texPart C m.tex).1 + (imgPart C m.tex).length

/-- What is written after the second chunk header, lines 800-806. -/
def payload (C : Codec K) (m : Mesh K) : Str :=
  posBytes C m.verts ++ idxBytes m.faces ++ (texPart C m.tex).2 ++ imgPart C m.tex

/-- `numpy()` of a tensor on the CPU shares its memory: line 630 turns around the texture coordinates of the mesh
itself. -/
def afterSave (m : Mesh K) : Mesh K :=
  { m with tex := match m.tex with
      | some (.uv im f u) => some (.uv im f (u.map fun r => (r.1, 1 - r.2)))
      | t => t }

/-- `_GLTFWriter.save`, lines 737-806: the file, and the mesh afterwards.  `struct.pack` raises for numbers of more than
32 bits. -/
def save (C : Codec K) (m : Mesh K) : Except Err (Str × Mesh K) :=
  if emptyData m then .error .value
  else
    let js := C.dumps (docOf C m)
    let n := announced C m
    if 2 ^ 32 ≤ js.length + n + 28 then .error .struct
    else .ok (leBytes 4 magic ++ leBytes 4 2 ++ leBytes 4 (js.length + n + 28)
      ++ leBytes 4 js.length ++ leBytes 4 jsonType ++ js
      ++ leBytes 4 n ++ leBytes 4 binType ++ payload C m, afterSave m)

end

end P3D.Gltf
