/-
`io/ply_io.py`: the header (`_PlyHeader`, `_PlyElementType`), the readers of binary and ascii elements,
`_load_ply_raw_stream`, `_get_verts_column_indices`, `_get_verts`, `_load_ply`; `_write_ply_header`, `_save_ply`.

A file is a list of bytes, written as characters with codes below 256.  `nb` is the byte order of the machine
(`sys.byteorder == "big"`), `be` that of the file.  Bytes 28 to 31 count as white space, which is so for `str` but not for
`bytes`.  Floating point numbers of binary files are their bit patterns;
what is computed with them is a parameter (`Cfg`).  Numbers of ascii files are rational numbers, rounded to float64
and float32 as in `Flt`.  `np.loadtxt` is modelled by its documented behaviour (empty lines are skipped, all rows must
have as many columns as the first, at most `max_rows` rows are read); that it still accepts `1.0` for an integer, with a
warning, is not modelled.  Not modelled either: two elements with one name, negative counts, conversions of numbers out of
range to integers (`Err.undefined`), `nan` and `inf` in text.
-/
import Verif.OffIo

set_option linter.unusedSectionVars false
set_option linter.unusedSimpArgs false

namespace P3D.Ply
open Text Obj

open Lean in
/-- The characters of a string literal. -/
macro "cs" s:str : term => do
  let l : Array (TSyntax `term) := (s.getString.toList.map fun c => ⟨Syntax.mkCharLit c⟩).toArray
  `(([$l,*] : Str))

/-- Exceptions: ValueError, IndexError, TypeError; a loop without end; behaviour outside of the model. -/
inductive Err
  | value | index | type | hang | undefined
  deriving DecidableEq, Repr

/-! ## Header -/

/-- The entries of `_PLY_TYPES` up to equality, ply_io.py:47-64. -/
inductive Ty
  | i8 | u8 | i16 | u16 | i32 | u32 | f32 | f64
  deriving DecidableEq, Repr

def Ty.size : Ty → Nat
  | .i8 | .u8 => 1
  | .i16 | .u16 => 2
  | .i32 | .u32 | .f32 => 4
  | .f64 => 8

def Ty.isFloat : Ty → Bool
  | .f32 | .f64 => true
  | _ => false

def Ty.isSigned : Ty → Bool
  | .i8 | .i16 | .i32 => true
  | _ => false

/-- `_PLY_TYPES`, ply_io.py:47-64. -/
def tyTable : List (Str × Ty) :=
  [(cs"char", .i8), (cs"uchar", .u8), (cs"short", .i16), (cs"ushort", .u16), (cs"int", .i32), (cs"uint", .u32),
   (cs"float", .f32), (cs"double", .f64), (cs"int8", .i8), (cs"uint8", .u8), (cs"int16", .i16), (cs"uint16", .u16),
   (cs"int32", .i32), (cs"uint32", .u32), (cs"float32", .f32), (cs"float64", .f64)]

def plyTy (s : Str) : Option Ty := getKey s tyTable

/-- `_Property`, ply_io.py:66: `tname` is the name of the data type as written, `lst` the type of the list size. -/
structure Property where
  name : Str
  tname : Str
  ty : Ty
  lst : Option Ty
  deriving DecidableEq, Repr

/-- `_PlyElementType`, ply_io.py:69-83. -/
structure Elem where
  name : Str
  count : Nat
  props : List Property
  deriving DecidableEq, Repr

/-- `is_fixed_size`, ply_io.py:103-112. -/
def Elem.isFixed (e : Elem) : Bool := e.props.all fun p => p.lst.isNone

/-- `is_constant_type_fixed_size`, ply_io.py:114-128. -/
def Elem.isConst (e : Elem) : Bool :=
  e.isFixed && match e.props with
    | [] => false
    | p :: ps => ps.all fun q => q.ty = p.ty

/-- `try_constant_list`, ply_io.py:130-141. -/
def Elem.tryList (e : Elem) : Bool :=
  match e.props with
  | [p] => p.lst.isSome
  | _ => false

inductive Fmt
  | ascii | binary (big : Bool)
  deriving DecidableEq, Repr

structure Header where
  elements : List Elem
  fmt : Fmt
  comments : List Str
  objInfo : List Str
  deriving DecidableEq, Repr

/-- The header read so far; the last element first. -/
structure St where
  elements : List Elem := []
  fmt : Option Fmt := none
  comments : List Str := []
  objInfo : List Str := []
  deriving DecidableEq, Repr

/-- `_parse_property`, ply_io.py:209-233, without adding it. -/
def parseProperty (line : Str) : Except Err Property :=
  let items := splitOn ' ' line
  if items.length ≠ 3 ∧ items.length ≠ 5 then .error .value
  else
    let d := items.getD 1 []
    let name := items.getLastD []
    if d = cs"list" then
      if items.length = 3 then .error .index
      else match plyTy (items.getD 2 []), plyTy (items.getD 3 []) with
        | some l, some t => .ok ⟨name, items.getD 3 [], t, some l⟩
        | _, _ => .error .value
    else match plyTy d with
      | some t => .ok ⟨name, d, t, none⟩
      | none => .error .value

/-- `add_property` to the last element, ply_io.py:85-101, 216-217, 233. -/
def addProperty (line : Str) : List Elem → Except Err (List Elem)
  | [] => .error .value
  | e :: es => do
    let p ← parseProperty line
    if e.props.any fun q => q.name = p.name then .error .value
    else .ok ({ e with props := e.props ++ [p] } :: es)

/-- The last element has properties. -/
def lastOk : List Elem → Bool
  | [] => true
  | e :: _ => e.props ≠ []

/-- `_parse_element`, ply_io.py:235-252. -/
def addElement (line : Str) (es : List Elem) : Except Err (List Elem) :=
  let items := splitOn ' ' line
  if !lastOk es then .error .value
  else if items.length ≠ 3 then .error .value
  else match parseInt (items.getD 2 []) with
    | none => .error .value
    | some n => if n < 0 then .error .undefined else .ok (⟨items.getD 1 [], n.toNat, []⟩ :: es)

/-! The words of headers, ply_io.py:164-206. -/

def kEnd : Str := cs"end_header"
def kAscii : Str := cs"format ascii 1.0"
def kLittle : Str := cs"format binary_little_endian 1.0"
def kBig : Str := cs"format binary_big_endian 1.0"
def kFormat : Str := cs"format"
def kComment_ : Str := cs"comment "
def kComment : Str := cs"comment"
def kElement : Str := cs"element"
def kObjInfo : Str := cs"obj_info "
def kProperty : Str := cs"property"

/-- One line of the header, ply_io.py:160-207; the result is the complete header after `end_header`. -/
def stepH (st : St) (line : Str) : Except Err (Header ⊕ St) :=
  if line.any fun c => 128 ≤ c.toNat then .error .value
  else if line = kEnd then
    if st.elements = [] then .error .value
    else if !lastOk st.elements then .error .value
    else match st.fmt with
      | none => .error .value
      | some f => .ok (.inl ⟨st.elements.reverse, f, st.comments, st.objInfo⟩)
  else if st.fmt = none ∧ line = kAscii then .ok (.inr { st with fmt := some .ascii })
  else if st.fmt = none ∧ line = kLittle then
    .ok (.inr { st with fmt := some (.binary false) })
  else if st.fmt = none ∧ line = kBig then .ok (.inr { st with fmt := some (.binary true) })
  else if startsWith kFormat line then .error .value
  else if startsWith kComment_ line then .ok (.inr { st with comments := st.comments ++ [line.drop 8] })
  else if startsWith kComment line ∨ line = [] then .ok (.inr st)
  else if startsWith kElement line then do
    let es ← addElement line st.elements
    .ok (.inr { st with elements := es })
  else if startsWith kObjInfo line then .ok (.inr { st with objInfo := st.objInfo ++ [line.drop 9] })
  else if startsWith kProperty line then do
    let es ← addProperty line st.elements
    .ok (.inr { st with elements := es })
  else .error .value

/-- The loop over the lines, ply_io.py:160-207; `acc` holds the characters of the line that were read, the last first.
At the end of the file `readline` returns an empty line again and again. -/
def hdr (acc : Str) : Str → St → Except Err (Header × Str)
  | [], st => match stepH st (strip acc.reverse) with
    | .error e => .error e
    | .ok (.inl h) => .ok (h, [])
    | .ok (.inr _) => .error .hang
  | c :: s, st =>
    if c = '\n' then match stepH st (strip acc.reverse) with
      | .error e => .error e
      | .ok (.inl h) => .ok (h, s)
      | .ok (.inr st) => hdr [] s st
    else hdr (c :: acc) s st

/-- `_PlyHeader.__init__`, ply_io.py:145-207: the header and the rest of the file. -/
def header (s : Str) : Except Err (Header × Str) :=
  if startsWith (cs"ply\n") s then hdr [] (s.drop 4) {}
  else if startsWith (cs"ply\r\n") s then hdr [] (s.drop 5) {}
  else .error .value

/-! ## Data -/

/-- A value of a property. -/
inductive Item (N : Type)
  | num (x : N)
  | list (l : List N)
  deriving DecidableEq, Repr

/-- What is read of an element: a list of arrays, one array, or a list of lists of values. -/
inductive Data (N : Type)
  | pieces (ps : List (List (List N)))
  | rect (a : List (List N))
  | rows (rs : List (List (Item N)))
  deriving DecidableEq, Repr

/-- The first `k` pieces of `n` entries. -/
def chunks {α : Type} (n : Nat) : Nat → List α → List (List α)
  | 0, _ => []
  | k + 1, l => l.take n :: chunks n k (l.drop n)

/-- `itertools.groupby` of the data types: name, type, number of properties. -/
def groups : List Property → List (Str × Ty × Nat)
  | [] => []
  | p :: ps => match groups ps with
    | [] => [(p.tname, p.ty, 1)]
    | (n, t, k) :: g => if p.tname = n then (n, t, k + 1) :: g else (p.tname, p.ty, 1) :: (n, t, k) :: g

/-! ### Binary -/

/-- A number of a binary file; floating point numbers by their bits. -/
inductive Val
  | int (z : Int)
  | f32 (bits : Nat)
  | f64 (bits : Nat)
  deriving DecidableEq, Repr

instance : Inhabited Val := ⟨.int 0⟩

/-- Bytes as a number, the lowest first. -/
def leNat : Str → Nat
  | [] => 0
  | c :: s => c.toNat + 256 * leNat s

def bytesNat (big : Bool) (b : Str) : Nat := leNat (if big then b.reverse else b)

/-- The number of type `t` with the bits `u`. -/
def value (t : Ty) (u : Nat) : Val :=
  match t with
  | .f32 => .f32 u
  | .f64 => .f64 u
  | t => .int (if t.isSigned ∧ 2 ^ (8 * t.size - 1) ≤ u then (u : Int) - 2 ^ (8 * t.size) else u)

/-- `struct.unpack` with the byte order of the file. -/
def unpack (be : Bool) (t : Ty) (b : Str) : Val := value t (bytesNat be b)

/-- An entry of a numpy array that was read in the byte order of the machine, and swapped if the file has the other. -/
def npItem (nb be : Bool) (t : Ty) (b : Str) : Val := value t (bytesNat nb (if nb ≠ be then b.reverse else b))

/-- `f.read(n)`, and the test of the length. -/
def read (n : Nat) (s : Str) : Except Err (Str × Str) := if s.length < n then .error .value else .ok (s.take n, s.drop n)

/-- `_read_ply_fixed_size_element_binary`, ply_io.py:515-549. -/
def fixedBin (nb be : Bool) (e : Elem) (t : Ty) (s : Str) : Except Err (Data Val × Str) := do
  let r ← read (e.count * e.props.length * t.size) s
  .ok (.pieces [chunks e.props.length e.count ((chunks t.size (e.count * e.props.length) r.1).map (npItem nb be t))], r.2)

/-- The parts of the rows, ply_io.py:580-605; the view with strides is written as taking the bytes from each row. -/
def piecesBin (nb be : Bool) : List (Str × Ty × Nat) → List Str → List (List (List Val))
  | [], _ => []
  | (_, t, k) :: g, rows =>
    (rows.map fun r => (chunks t.size k r).map (npItem nb be t)) :: piecesBin nb be g (rows.map fun r => r.drop (k * t.size))

/-- `_read_ply_element_binary_nolists`, ply_io.py:552-606. -/
def nolistBin (nb be : Bool) (e : Elem) (s : Str) : Except Err (Data Val × Str) := do
  let size := (e.props.map fun p => p.ty.size).sum
  let r ← read (size * e.count) s
  .ok (.pieces (piecesBin nb be (groups e.props) (chunks size e.count r.1)), r.2)

/-- `get_length`, ply_io.py:647-652; a negative length is an error where it is used, a floating point one too. -/
def getLength (be : Bool) (lt : Ty) (s : Str) : Except Err (Nat × Str) := do
  let r ← read lt.size s
  match unpack be lt r.1 with
  | .int z => if z < 0 then .error .value else .ok (z.toNat, r.2)
  | _ => .error .type

/-- The list of a row, ply_io.py:664-667, 741-750. -/
def listBin (nb be : Bool) (t : Ty) (len : Nat) (s : Str) : Except Err (List Val × Str) := do
  let r ← read (t.size * len) s
  .ok ((chunks t.size len r.1).map (npItem nb be t), r.2)

/-- The loop of `_try_read_ply_constant_list_binary`, ply_io.py:663-675. -/
def constLoop (nb be : Bool) (lt t : Ty) (len : Nat) : Nat → Str → Except Err (Option (List (List Val) × Str))
  | 0, s => .ok (some ([], s))
  | n + 1, s => do
    let r ← listBin nb be t len s
    if n = 0 then .ok (some ([r.1], r.2))
    else
      let l ← getLength be lt r.2
      if len ≠ l.1 then .ok none
      else match ← constLoop nb be lt t len n l.2 with
        | none => .ok none
        | some q => .ok (some (r.1 :: q.1, q.2))

/-- `_try_read_ply_constant_list_binary`, ply_io.py:609-679. -/
def constBin (nb be : Bool) (lt t : Ty) (count : Nat) (s : Str) : Except Err (Option (List (List Val) × Str)) := do
  let l ← getLength be lt s
  constLoop nb be lt t l.1 count l.2

/-- A property of one instance of an element, ply_io.py:730-750. -/
def itemBin (nb be : Bool) (p : Property) (s : Str) : Except Err (Item Val × Str) :=
  match p.lst with
  | none => do
    let r ← read p.ty.size s
    .ok (.num (unpack be p.ty r.1), r.2)
  | some lt => do
    let l ← getLength be lt s
    let r ← listBin nb be p.ty l.1 l.2
    .ok (.list r.1, r.2)

def rowBin (nb be : Bool) : List Property → Str → Except Err (List (Item Val) × Str)
  | [], s => .ok ([], s)
  | p :: ps, s => do
    let r ← itemBin nb be p s
    let q ← rowBin nb be ps r.2
    .ok (r.1 :: q.1, q.2)

def rowsBin (nb be : Bool) (ps : List Property) : Nat → Str → Except Err (List (List (Item Val)) × Str)
  | 0, s => .ok ([], s)
  | n + 1, s => do
    let r ← rowBin nb be ps s
    let q ← rowsBin nb be ps n r.2
    .ok (r.1 :: q.1, q.2)

/-- The rows one by one, ply_io.py:718-752. -/
def slowBin (nb be : Bool) (e : Elem) (s : Str) : Except Err (Data Val × Str) := do
  let r ← rowsBin nb be e.props e.count s
  .ok (.rows r.1, r.2)

def ty0 (e : Elem) : Ty := (e.props.headD ⟨[], [], .f32, none⟩).ty
def lst0 (e : Elem) : Ty := ((e.props.headD ⟨[], [], .f32, none⟩).lst).getD .u8

/-- `_read_ply_element_binary`, ply_io.py:682-752. -/
def elemBin (nb be : Bool) (e : Elem) (s : Str) : Except Err (Data Val × Str) :=
  if e.count = 0 then .ok (.rows [], s)
  else if e.isConst then fixedBin nb be e (ty0 e) s
  else if e.isFixed then nolistBin nb be e s
  else if e.tryList then do
    match ← constBin nb be (lst0 e) (ty0 e) e.count s with
    | some r => .ok (.rect r.1, r.2)
    | none => slowBin nb be e s
  else slowBin nb be e s

/-! ### Ascii -/

def Ty.lo (t : Ty) : Int := if t.isSigned then -2 ^ (8 * t.size - 1) else 0
def Ty.hi (t : Ty) : Int := if t.isSigned then 2 ^ (8 * t.size - 1) else 2 ^ (8 * t.size)

/-- A float64 as a number of type `t`; `none` if it does not fit. -/
def astype (t : Ty) (x : ℚ) : Option ℚ :=
  match t with
  | .f32 => some (Flt.f32 x)
  | .f64 => some x
  | t => if t.lo ≤ Off.trunc x ∧ Off.trunc x < t.hi then some (Off.trunc x) else none

/-- A word read as a number of type `t` by `np.loadtxt`. -/
def conv (t : Ty) (w : Str) : Option ℚ :=
  if t.isFloat then (parseFloat w).bind fun q => astype t (Flt.f64 q)
  else (parseInt w).bind fun z => if t.lo ≤ z ∧ z < t.hi then some (z : ℚ) else none

/-- `np.loadtxt(f, dtype=…, comments=None, ndmin=2, max_rows=n)`; `c` is the number of columns found so far. -/
def loadRows (cv : Str → Option ℚ) : Nat → Option Nat → List Str → Except Err (List (List ℚ) × List Str)
  | 0, _, ls => .ok ([], ls)
  | _ + 1, _, [] => .ok ([], [])
  | n + 1, c, l :: ls =>
    let ws := words l
    if ws = [] then loadRows cv (n + 1) c ls
    else if c.any (· ≠ ws.length) then .error .value
    else match ws.mapM cv with
      | none => .error .value
      | some v => do
        let r ← loadRows cv n (some ws.length) ls
        .ok (v :: r.1, r.2)

def width {N : Type} (a : List (List N)) : Nat := (a.headD []).length

/-- The tests of the shape, ply_io.py:282-285, 326-329. -/
def checkShape (e : Elem) (r : List (List ℚ) × List Str) : Except Err (List (List ℚ) × List Str) :=
  if width r.1 ≠ e.props.length then .error .value
  else if r.1.length ≠ e.count then .error .value
  else .ok r

/-- `_read_ply_fixed_size_element_ascii`, ply_io.py:255-286. -/
def fixedAsc (e : Elem) (t : Ty) (ls : List Str) : Except Err (Data ℚ × List Str) := do
  let r ← loadRows (conv t) e.count none ls
  let r ← checkShape e r
  .ok (.pieces [r.1], r.2)

/-- The parts of the rows converted to their types, ply_io.py:330-338. -/
def piecesAsc : List (Str × Ty × Nat) → List (List ℚ) → Option (List (List (List ℚ)))
  | [], _ => some []
  | (_, t, k) :: g, rows => do
    let a ← rows.mapM fun r => (r.take k).mapM (astype t)
    let ps ← piecesAsc g (rows.map fun r => r.drop k)
    some (a :: ps)

/-- `_read_ply_nolist_element_ascii`, ply_io.py:289-339. -/
def nolistAsc (e : Elem) (ls : List Str) : Except Err (Data ℚ × List Str) := do
  let r ← loadRows (conv .f64) e.count none ls
  let r ← checkShape e r
  match piecesAsc (groups e.props) r.1 with
  | none => .error .undefined
  | some ps => .ok (.pieces ps, r.2)

/-- `_try_read_ply_constant_list_ascii`, ply_io.py:342-397. -/
def constAsc (e : Elem) (t : Ty) (ls : List Str) : Except Err (Option (List (List ℚ) × List Str)) :=
  match loadRows (conv t) e.count none ls with
  | .error _ => .ok none
  | .ok r =>
    if r.1.any fun v => v.getD 0 0 ≠ (width r.1 : ℚ) - 1 then .error .value
    else if r.1.length ≠ e.count then .error .value
    else .ok (some (r.1.map (·.drop 1), r.2))

def takeList (t : Ty) : Nat → List Str → Except Err (List ℚ × List Str)
  | 0, ws => .ok ([], ws)
  | _ + 1, [] => .error .value
  | n + 1, w :: ws => match parseFloat w with
    | none => .error .value
    | some q => match astype t (Flt.f64 q) with
      | none => .error .undefined
      | some x => do
        let r ← takeList t n ws
        .ok (x :: r.1, r.2)

/-- `_parse_heterogeneous_property_ascii`, ply_io.py:400-437. -/
def itemAsc (p : Property) : List Str → Except Err (Item ℚ × List Str)
  | [] => .error .value
  | w :: ws => match p.lst with
    | none =>
      if p.tname = cs"double" ∨ p.tname = cs"float" then match parseFloat w with
        | none => .error .value
        | some q => .ok (.num (Flt.f64 q), ws)
      else match parseInt w with
        | none => .error .value
        | some z => .ok (.num z, ws)
    | some _ => match parseInt w with
      | none => .error .value
      | some z => if z < 0 then .error .value else do
        let r ← takeList p.ty z.toNat ws
        .ok (.list r.1, r.2)

def rowAsc : List Property → List Str → Except Err (List (Item ℚ))
  | [], [] => .ok []
  | [], _ :: _ => .error .value
  | p :: ps, ws => do
    let r ← itemAsc p ws
    let q ← rowAsc ps r.2
    .ok (r.1 :: q)

/-- The rows one by one, ply_io.py:466-478. -/
def rowsAsc (ps : List Property) : Nat → List Str → Except Err (List (List (Item ℚ)) × List Str)
  | 0, ls => .ok ([], ls)
  | _ + 1, [] => .error .value
  | n + 1, l :: ls => do
    let r ← rowAsc ps (words l)
    let q ← rowsAsc ps n ls
    .ok (r :: q.1, q.2)

def slowAsc (e : Elem) (ls : List Str) : Except Err (Data ℚ × List Str) := do
  let r ← rowsAsc e.props e.count ls
  .ok (.rows r.1, r.2)

/-- `_read_ply_element_ascii`, ply_io.py:440-478. -/
def elemAsc (e : Elem) (ls : List Str) : Except Err (Data ℚ × List Str) :=
  if e.count = 0 then .ok (.rows [], ls)
  else if e.isConst then fixedAsc e (ty0 e) ls
  else if e.isFixed then nolistAsc e ls
  else if e.tryList then do
    match ← constAsc e (ty0 e) ls with
    | some r => .ok (.rect r.1, r.2)
    | none => slowAsc e ls
  else slowAsc e ls

/-! ## Vertices and faces -/

/-- All elements in order, ply_io.py:772-784. -/
def readAll {N S : Type} (rd : Elem → S → Except Err (Data N × S)) : List Elem → S → Except Err (List (Str × Data N) × S)
  | [], s => .ok ([], s)
  | e :: es, s => do
    let r ← rd e s
    let q ← readAll rd es r.2
    .ok ((e.name, r.1) :: q.1, q.2)

/-- What is computed with numbers of type `N`: conversion to float32, multiplication of it by 1/255, conversion to int64. -/
structure Cfg (N F : Type) where
  toF : N → F
  scale : F → F
  toIdx : N → Int

structure Verts (F : Type) where
  verts : List (List F)
  colors : Option (List (List F))
  normals : Option (List (List F))
  uvs : Option (List (List F))
  deriving DecidableEq, Repr

/-- The columns with the given names; `none` if one is missing, ply_io.py:866-899. -/
def colIdx (e : Elem) (names : List Str) : Option (List Nat) := names.mapM fun n => e.props.findIdx? fun p => p.name = n

def xyz : List Str := [cs"x", cs"y", cs"z"]
def rgb : List Str := [cs"red", cs"green", cs"blue"]
def nxyz : List Str := [cs"nx", cs"ny", cs"nz"]
def uv : List Str := [cs"texture_u", cs"texture_v"]

/-- Whether colours are multiplied by 1/255, ply_io.py:882-888. -/
def isByte (e : Elem) (idx : List Nat) : Bool := idx.all fun i => (e.props[i]?).any fun p => p.ty.size = 1

def scaled {F : Type} (sc : F → F) (b : Bool) (a : List (List F)) : List (List F) := if b then a.map (·.map sc) else a

/-- Columns of one array, ply_io.py:956-971. -/
def pickOne {N F : Type} [Inhabited N] (toF : N → F) (a : List (List N)) (idx : List Nat) : List (List F) :=
  a.map fun r => idx.map fun i => toF (r.getD i default)

/-- `prop_to_partnum_col`, ply_io.py:978-982. -/
def partCol {N : Type} (ps : List (List (List N))) : List (Nat × Nat) :=
  (ps.mapIdx fun p a => (List.range (width a)).map fun c => (p, c)).flatten

/-- Columns of several arrays, ply_io.py:983-1017. -/
def pickParts {N F : Type} [Inhabited N] (toF : N → F) (count : Nat) (ps : List (List (List N))) (idx : List Nat) :
    List (List F) :=
  (List.range count).map fun i => idx.map fun n =>
    let pc := (partCol ps).getD n (0, 0)
    toF (((ps.getD pc.1 []).getD i []).getD pc.2 default)

/-- Columns of one or several arrays, ply_io.py:951-1017. -/
def pickCols {N F : Type} [Inhabited N] (toF : N → F) (count : Nat) (ps : List (List (List N))) (idx : List Nat) : List (List F) :=
  match ps with
  | [a] => pickOne toF a idx
  | ps => pickParts toF count ps idx

/-- `_get_verts`, ply_io.py:910-1023. -/
def getVerts {N F : Type} [Inhabited N] (c : Cfg N F) (head : Elem) (d : Data N) : Except Err (Verts F) :=
  match d with
  | .rect _ => .error .value
  | d =>
    if head.props.any fun p => p.lst.isSome then .error .value
    else match colIdx head xyz with
      | none => .error .value
      | some pi =>
        let ci := colIdx head rgb
        if head.count = 0 then .ok ⟨[], ci.map fun _ => [], none, none⟩
        else match d with
          | .pieces ps =>
            let pick := pickCols c.toF head.count ps
            if ps.length = 1 ∧ width (ps.headD []) = 3 then .ok ⟨(ps.headD []).map (·.map c.toF), none, none, none⟩
            else .ok ⟨pick pi, ci.map fun i => scaled c.scale (isByte head i) (pick i), (colIdx head nxyz).map pick,
              (colIdx head uv).map pick⟩
          | _ => .error .undefined

def shortRow {N : Type} (r : List (Item N)) : Bool :=
  match r with
  | [.list l] => l.length < 3
  | _ => true

/-- The triangles of one face, ply_io.py:1094-1095. -/
def rowFan {N : Type} (toIdx : N → Int) (r : List (Item N)) : List Idx3 :=
  match r with
  | [.list l] => fan (l.map toIdx)
  | _ => []

/-- The faces, ply_io.py:1063-1097; `none` if there are none. -/
def getFaces {N : Type} (toIdx : N → Int) (head : Elem) (d : Data N) : Except Err (Option (List Idx3)) :=
  match head.props with
  | [p] =>
    if p.lst.isNone then .error .value
    else match d with
      | .rect a =>
        if width a < 3 then .error .value else .ok (some (Off.stacked (width a) (a.map (·.map toIdx))))
      | .rows [] => .ok none
      | .rows rs =>
        if rs.any shortRow then .error .value else .ok (some (rs.flatMap (rowFan toIdx)))
      | .pieces _ => .error .undefined
  | _ => .error .value

structure Loaded (F : Type) extends Verts F where
  faces : Option (List Idx3)
  deriving DecidableEq, Repr

/-- `_load_ply` after the elements have been read, ply_io.py:1060-1102. -/
def assemble {N F : Type} [Inhabited N] (c : Cfg N F) (h : Header) (els : List (Str × Data N)) : Except Err (Loaded F) :=
  match h.elements.find? fun e => e.name = cs"vertex", getKey (cs"vertex") els with
  | some e, some d => do
    let v ← getVerts c e d
    match h.elements.find? fun e => e.name = cs"face", getKey (cs"face") els with
    | some e, some d => do
      let f ← getFaces c.toIdx e d
      .ok ⟨v, f⟩
    | _, _ => .ok ⟨v, none⟩
  | _, _ => .error .value

/-- `_load_ply_raw_stream`, ply_io.py:755-788, and `_load_ply`; `cb` and `ca` are used for the numbers of binary and of ascii
files. -/
def loadPly {F : Type} (cb : Cfg Val F) (ca : Cfg ℚ F) (nb : Bool) (s : Str) : Except Err (Loaded F) :=
  match header s with
  | .error e => .error e
  | .ok (h, rest) =>
    if ¬ (h.elements.map (·.name)).Nodup then .error .undefined
    else match h.fmt with
      | .binary be => do
        let r ← readAll (elemBin nb be) h.elements rest
        if strip r.2 = [] then assemble cb h r.1 else .error .value
      | .ascii => do
        let r ← readAll elemAsc h.elements (lines rest)
        if r.2.all fun l => strip l = [] then assemble ca h r.1 else .error .value

/-! ## Writing -/

abbrev V3 (F : Type) := F × F × F

structure Args (F : Type) where
  verts : List (V3 F)
  faces : Option (List Idx3) := none
  normals : Option (List (V3 F)) := none
  colors : Option (List (V3 F)) := none
  uint8 : Bool := false
  decimals : Option Nat := none

/-- `_write_ply_header`, ply_io.py:1189-1258. -/
def headLines {F : Type} (fmt : Fmt) (a : Args F) : List Str :=
  [cs"ply", match fmt with
    | .ascii => cs"format ascii 1.0"
    | .binary true => cs"format binary_big_endian 1.0"
    | .binary false => cs"format binary_little_endian 1.0",
   join [' '] [cs"element", cs"vertex", fmtInt a.verts.length],
   cs"property float x", cs"property float y", cs"property float z"] ++
  (if a.normals.isSome then [cs"property float nx", cs"property float ny", cs"property float nz"] else []) ++
  (if a.colors.isSome then
    (if a.uint8 then [cs"property uchar red", cs"property uchar green", cs"property uchar blue"]
     else [cs"property float red", cs"property float green", cs"property float blue"]) else []) ++
  (match a.faces with
    | some f => if a.verts ≠ [] then
        [join [' '] [cs"element", cs"face", fmtInt f.length], cs"property list uchar int vertex_index"] else []
    | none => []) ++
  [cs"end_header"]

/-- Normals and colours must fit the vertices. -/
def shapeOk {F : Type} (a : Args F) : Bool :=
  (a.normals.all fun n => n.length = a.verts.length) && (a.colors.all fun n => n.length = a.verts.length)

def byte (n : Nat) : Char := Char.ofNat (n % 256)

def leBytes : Nat → Nat → Str
  | 0, _ => []
  | k + 1, n => byte n :: leBytes k (n / 256)

/-- The bytes of a number in memory. -/
def natBytes (big : Bool) (k n : Nat) : Str := if big then (leBytes k n).reverse else leBytes k n

def tri {F : Type} (f : F → Str) (v : V3 F) : Str := f v.1 ++ f v.2.1 ++ f v.2.2

/-- An entry of the structured array of vertices, ply_io.py:1301-1324; `quant` is `np.rint(color * 255)` as a byte. -/
def vertBytes (nb : Bool) (quant : Nat → Nat) (uint8 : Bool) (v : V3 Nat) (n c : Option (V3 Nat)) : Str :=
  tri (natBytes nb 4) v ++ (n.map (tri (natBytes nb 4))).getD [] ++
    (c.map (if uint8 then tri fun x => natBytes nb 1 (quant x) else tri (natBytes nb 4))).getD []

/-- An entry of the structured array of faces, ply_io.py:1351-1358. -/
def faceBytes (nb : Bool) (f : Idx3) : Str :=
  byte 3 :: tri (fun z : Int => natBytes nb 4 (z % 2 ^ 32).toNat) f

def at? {α : Type} (l : Option (List α)) (i : Nat) : Option α := l.bind fun l => l[i]?

/-- `_save_ply` for binary files on a machine with byte order `nb`, ply_io.py:1261-1363; float32 numbers are their bits. -/
def saveBin (nb : Bool) (quant : Nat → Nat) (a : Args Nat) : Except Err Str :=
  if a.verts ≠ [] ∧ ¬ shapeOk a then .error .value
  else
    let h := (headLines (.binary nb) a).flatMap (· ++ ['\n'])
    if a.verts = [] then .ok h
    else .ok (h ++ (a.verts.mapIdx fun i v => vertBytes nb quant a.uint8 v (at? a.normals i) (at? a.colors i)).flatten ++
      (a.faces.getD []).flatMap (faceBytes nb))

/-- The words of a vertex, ply_io.py:1326-1340. -/
def vertWords (k : Nat) (quant : ℚ → Nat) (uint8 : Bool) (v : V3 ℚ) (n c : Option (V3 ℚ)) : List Str :=
  let w := fun v : V3 ℚ => [fmtFloat k v.1, fmtFloat k v.2.1, fmtFloat k v.2.2]
  w v ++ (n.map w).getD [] ++
    (c.map fun c => if uint8 then [fmtInt (quant c.1), fmtInt (quant c.2.1), fmtInt (quant c.2.2)] else w c).getD []

/-- The words of a face, ply_io.py:1349-1350. -/
def faceWords (f : Idx3) : List Str := [fmtInt 3, fmtInt f.1, fmtInt f.2.1, fmtInt f.2.2]

/-- `_save_ply` for ascii files, ply_io.py:1261-1350. -/
def saveAsc (quant : ℚ → Nat) (a : Args ℚ) : Except Err Str :=
  if a.verts ≠ [] ∧ ¬ shapeOk a then .error .value
  else
    let h := headLines .ascii a
    if a.verts = [] then .ok (h.flatMap (· ++ ['\n']))
    else .ok ((h ++ (a.verts.mapIdx fun i v =>
        join [' '] (vertWords (a.decimals.getD 6) quant a.uint8 v (at? a.normals i) (at? a.colors i))) ++
      (a.faces.getD []).map fun f => join [' '] (faceWords f)).flatMap (· ++ ['\n']))

/-- Conversions of the numbers of a binary file: int64 numbers of floating point bits are arbitrary. -/
def cfgBin (ofInt : Int → Nat) (to32 : Nat → Nat) (toIdx : Val → Int) (scale : Nat → Nat) : Cfg Val Nat where
  toF
    | .int z => ofInt z
    | .f32 b => b
    | .f64 b => to32 b
  scale := scale
  toIdx
    | .int z => z
    | v => toIdx v

/-- The numbers of an ascii file. -/
def cfgAsc (scale : ℚ → ℚ) : Cfg ℚ ℚ where
  toF := Flt.f32
  scale := scale
  toIdx := Off.trunc

end P3D.Ply
