/-
The containers `TexturesVertex` and `TexturesAtlas` (`renderer/mesh/textures.py:205-291, 400-563, 621-703, 1718-1857, 1888-1980`)
and what `Meshes` does with the textures it holds (`structures/meshes.py:426-446, 519-524, 1184-1185, 1524-1544, 1664-1669, 1672-1766`).

A texture is a batch with one row of features per vertex (`TexturesVertex`) or one square map per face (`TexturesAtlas`); `α` is the type
of such a feature.  Both classes keep a list view and a padded view, each computed at most once.
Not modelled: devices and dtypes, the checks of the trailing dimensions of list elements, sharing of storage between tensors (C05),
`detach` and `to`, which follow `clone`.  `TexturesUV` is not covered here.
-/
import Verif.MeshOpsProps
import Verif.StructUtilsProps

set_option linter.unusedSectionVars false

namespace P3D.Textures

open P3D.StructUtils (listToPadded paddedToList listToPacked expectedRow)
open P3D.Meshes (Index nonzero pick pyIndex)

variable {α β V : Type}

/-! ### Model -/

/-- Python exceptions. -/
inductive Err
  | valueError | indexError | attributeError | typeError | runtimeError
  deriving DecidableEq, Repr

/-- Exceptions of the functions of `structures/utils.py`. -/
def liftErr : StructUtils.Err → Err
  | .valueError => .valueError
  | .runtimeError => .runtimeError
  | .indexError => .indexError
  | .assertionError => .runtimeError

def lift (e : Except StructUtils.Err β) : Except Err β :=
  match e with
  | .ok x => .ok x
  | .error e => .error (liftErr e)

/-- Which class. -/
inductive Kind | vertex | atlas
  deriving DecidableEq, Repr

/-- Dimensions of a feature: `(C,)` for vertices, `(R, R, C)` for the atlas. -/
def Kind.rank : Kind → Nat
  | .vertex => 1
  | .atlas => 3

/-- The value of `_num_verts_per_mesh` / `_num_faces_per_mesh`: a list, or a bare int (after indexing with an int). -/
inductive Nums
  | list (l : List Nat)
  | int (n : Nat)
  deriving DecidableEq, Repr

/-- A padded tensor `(N, width, …)` with `rank` further dimensions. -/
structure Pad (α : Type) where
  rank : Nat
  width : Nat
  rows : List (List α)
  deriving DecidableEq, Repr

/-- The attributes of a texture object. -/
structure Tex (α : Type) where
  kind : Kind
  list : Option (List (List α))
  padded : Option (Pad α)
  N : Nat
  num : Nums
  valid : List Bool
  deriving DecidableEq, Repr

/-- textures.py:421-446, 473 / 1731-1752, 1774: the constructor on a list. -/
def ofList (k : Kind) (l : List (List α)) : Tex α :=
  ⟨k, some l, none, l.length, .list (l.map List.length), List.replicate l.length true⟩

/-- textures.py:448-465, 473 / 1754-1769, 1774: the constructor on a padded tensor. -/
def ofPadded (k : Kind) (p : Pad α) : Except Err (Tex α) :=
  if p.rank ≠ k.rank then .error .valueError
  else .ok ⟨k, none, some p, p.rows.length, .list (List.replicate p.rows.length p.width), List.replicate p.rows.length true⟩

/-- textures.py:206-209 `isempty`. -/
def isempty (t : Tex α) : Bool := t.N == 0 || t.valid.all (fun b => !b)

/-- textures.py:520-532 `atlas_padded`, 1814-1826 `verts_features_padded`.  `z` is a feature of zeros.  The empty vertex texture gets a tensor
with four dimensions `(N, 0, 3, 0)`. -/
def paddedView (z : α) (t : Tex α) : Except Err (Pad α × Tex α) :=
  match t.padded with
  | some p => .ok (p, t)
  | none =>
    if isempty t then
      let p : Pad α := ⟨if t.kind = .vertex then 2 else 3, 0, List.replicate t.N []⟩
      .ok (p, { t with padded := some p })
    else
      match t.list with
      | none => .error .typeError
      | some l =>
        match listToPadded l none z false with
        | .error e => .error (liftErr e)
        | .ok rows => .ok (⟨t.kind.rank, (rows.headD []).length, rows⟩, { t with padded := some ⟨t.kind.rank, (rows.headD []).length, rows⟩ })

/-- textures.py:534-546 `atlas_list`, 1828-1842 `verts_features_list`.  In the empty case `atlas_list` assigns the list to `_atlas_padded`
and goes on to read `x.shape` of that list. -/
def listView (t : Tex α) : Except Err (List (List α) × Tex α) :=
  match t.list with
  | some l => .ok (l, t)
  | none =>
    if isempty t then
      match t.kind with
      | .vertex => .ok (List.replicate t.N [], { t with list := some (List.replicate t.N []) })
      | .atlas => .error .attributeError
    else
      match t.padded, t.num with
      | some p, .list s =>
        match paddedToList p.rows (some s) with
        | .error e => .error (liftErr e)
        | .ok l => .ok (l, { t with list := some l })
      | _, _ => .error .typeError

/-- textures.py:548-554 `atlas_packed`, 1844-1848 `verts_features_packed`; `none`: the tensor without elements of the empty texture. -/
def packedView (t : Tex α) : Except Err (Option (List α) × Tex α) :=
  if isempty t then .ok (none, t)
  else
    match listView t with
    | .error e => .error e
    | .ok (l, t) =>
      match listToPacked l with
      | .error e => .error (liftErr e)
      | .ok p => .ok (some p.packed, t)

/-- textures.py:267-291 `_getitem` on `_num_…_per_mesh`. -/
def numItem (ix : Index) : Nums → Except Err Nums
  | .int _ => .error .typeError
  | .list s =>
    match lift (ix.select s) with
    | .error e => .error e
    | .ok s' =>
      match ix, s' with
      | .int _, [n] => .ok (.int n)
      | _, s' => .ok (.list s')

/-- textures.py:503-518, 1792-1812 `__getitem__`: the new texture and `self`.  The vertex class replaces an empty list by an empty padded
tensor (and asks for its own padded tensor to find the device). -/
def getitem (z : α) (ix : Index) (t : Tex α) : Except Err (Tex α × Tex α) :=
  match listView t with
  | .error e => .error e
  | .ok (l, t) =>
    match lift (ix.select l), numItem ix t.num with
    | .error e, _ => .error e
    | _, .error e => .error e
    | .ok l', .ok n =>
      if t.kind = .vertex ∧ l' = [] then
        match paddedView z t with
        | .error e => .error e
        | .ok (_, t) => .ok ({ kind := .vertex, list := none, padded := some ⟨1, 0, []⟩, N := 0, num := n, valid := [] }, t)
      else .ok ({ ofList t.kind l' with num := n }, t)

/-- textures.py:224-265 `_extend`, 556-561, 1850-1855 `extend`. -/
def extend (z : α) (n : Nat) (t : Tex α) : Except Err (Tex α × Tex α) :=
  if n = 0 then .error .valueError
  else
    match paddedView z t with
    | .error e => .error e
    | .ok (p, t) =>
      match t.num with
      | .int _ => .error .valueError
      | .list s =>
        match ofPadded t.kind { p with rows := p.rows.flatMap (List.replicate n) } with
        | .error e => .error e
        | .ok x => .ok ({ x with num := .list (s.flatMap (List.replicate n)) }, t)

/-- textures.py:475-487, 1776-1782 `clone`.  Only the vertex class calls `.copy()` on the counts. -/
def clone (z : α) (t : Tex α) : Except Err (Tex α × Tex α) :=
  match paddedView z t with
  | .error e => .error e
  | .ok (p, t) =>
    match ofPadded t.kind p with
    | .error e => .error e
    | .ok x =>
      match t.kind, t.num with
      | .vertex, .int _ => .error .attributeError
      | _, _ => .ok ({ x with list := t.list, num := t.num, valid := t.valid }, t)

/-- `features[ids]` for every submesh of one mesh. -/
def subRows (x : List α) (ids : List (List Nat)) : Except Err (List (List α)) :=
  ids.mapM (fun is => lift (StructUtils.gather x is))

/-- The double loop of `submeshes`. -/
def subAll : List (List α) → List (List (List Nat)) → Except Err (List (List α))
  | [], _ => .ok []
  | _, [] => .ok []
  | x :: xs, i :: is =>
    match subRows x i, subAll xs is with
    | .error e, _ => .error e
    | _, .error e => .error e
    | .ok a, .ok b => .ok (a ++ b)

/-- textures.py:621-644, 1888-1925 `submeshes`. -/
def submeshes (ids : List (List (List Nat))) (t : Tex α) : Except Err (Tex α × Tex α) :=
  match listView t with
  | .error e => .error e
  | .ok (l, t) =>
    if ids.length ≠ l.length then .error .indexError
    else
      match subAll l ids with
      | .error e => .error e
      | .ok r => .ok (ofList t.kind r, t)

/-- textures.py:690-694, 1967-1971 `join_scene`; `torch.cat` of no tensors raises. -/
def joinScene (t : Tex α) : Except Err (Tex α × Tex α) :=
  match listView t with
  | .error e => .error e
  | .ok (l, t) => if l = [] then .error .runtimeError else .ok (ofList t.kind [l.flatten], t)

/-- textures.py:696-703, 1973-1980 `check_shapes` on the padded tensor; the vertex class compares all dimensions but the last. -/
def checkShapes (k : Kind) (p : Pad α) (N M : Nat) : Bool :=
  p.rows.length == N && p.width == M && (k == .atlas || p.rank == 1)

/-- The part of a batch of meshes that concerns the texture: for each mesh whether the other sort of element (faces for vertex textures,
vertices for the atlas) is there, and the elements that carry features. -/
abbrev Batch (V : Type) := List (Bool × List V)

/-- meshes.py:359-367: which meshes are valid. -/
def validOf (m : Batch V) : List Bool := m.map (fun x => x.1 && !x.2.isEmpty)

/-- meshes.py:351-367, 420-446: `Meshes(verts, faces, textures=t)`: check the shapes, then overwrite the counts and `valid` of the texture.
A batch without a valid mesh has empty counts (lines 425-431). -/
def attach (z : α) (m : Batch V) (t : Tex α) : Except Err (Tex α) :=
  match paddedView z t with
  | .error e => .error e
  | .ok (p, t) =>
    if checkShapes t.kind p m.length ((m.map (fun x => x.2.length)).foldl max 0) then
      .ok { t with
        num := .list (if (validOf m).any id then m.map (fun x => x.2.length) else [])
        valid := validOf m }
    else .error .valueError

/-- A batch of meshes with its texture. -/
structure Item (V α : Type) where
  mesh : Batch V
  tex : Tex α
  deriving DecidableEq, Repr

/-- Operations on batches of meshes.  Batches are numbered; every command but the views makes a new one at the end. -/
inductive Cmd
  /-- `textures.…_list()`, `…_padded()`, `…_packed()` -/
  | list (i : Nat)
  | padded (i : Nat)
  | packed (i : Nat)
  /-- `meshes[index]` -/
  | get (i : Nat) (ix : Index)
  /-- `meshes.extend(n)` -/
  | extend (i n : Nat)
  /-- `meshes.clone()` -/
  | clone (i : Nat)
  /-- `join_meshes_as_batch` -/
  | join (i : Nat) (is : List Nat)
  /-- `join_meshes_as_scene` of one batch -/
  | scene (i : Nat)
  /-- `meshes.submeshes`: for every mesh and submesh, whether the other elements are there and the positions of the kept ones -/
  | sub (i : Nat) (ids : List (List (Bool × List Nat)))

/-- `meshes.extend` on the elements (meshes.py:1532-1538). -/
def extendM (n : Nat) (m : Batch V) : Batch V := m.flatMap (List.replicate n)

/-- `meshes.submeshes` on the elements. -/
def subM : Batch V → List (List (Bool × List Nat)) → Option (Batch V)
  | [], [] => some []
  | x :: m, i :: ids => do
    let a ← i.mapM fun s => (s.2.mapM fun k => x.2[k]?).map fun r => (s.1, r)
    let b ← subM m ids
    return a ++ b
  | _, _ => none

/-- meshes.py:1755-1766: the scene of a batch with more than one mesh. -/
def sceneM (m : Batch V) : Batch V := [(m.any (fun x => x.1), m.flatMap (fun x => x.2))]

/-- The item with number `i`. -/
def itemAt (pool : List (Item V α)) (i : Nat) : Except Err (Item V α) :=
  match pool[i]? with
  | some it => .ok it
  | none => .error .indexError

def optE (o : Option β) : Except Err β :=
  match o with
  | some x => .ok x
  | none => .error .indexError

/-- The last line of the operations: `self.__class__(verts=…, faces=…, textures=…)`. -/
def finish (z : α) (pool : List (Item V α)) (m : Batch V) (x : Tex α) : Except Err (List (Item V α)) :=
  match attach z m x with
  | .error e => .error e
  | .ok x => .ok (pool ++ [⟨m, x⟩])

/-- textures.py:663-688, 1939-1965 `join_batch`, the loop over the other textures. -/
def joinLoop (k : Kind) : List Nat → List (Item V α) → List (List α) → List Nat → Batch V →
    Except Err (List (List α) × List Nat × Batch V × List (Item V α))
  | [], pool, l, s, m => .ok (l, s, m, pool)
  | i :: is, pool, l, s, m =>
    match itemAt pool i with
    | .error e => .error e
    | .ok it =>
      if it.tex.kind ≠ k then .error .valueError
      else
        match listView it.tex with
        | .error e => .error e
        | .ok (l', t) =>
          match t.num with
          | .int _ => .error .typeError
          | .list s' => joinLoop k is (pool.set i ⟨it.mesh, t⟩) (l ++ l') (s ++ s') (m ++ it.mesh)

/-- One command. -/
def step (z : α) (pool : List (Item V α)) : Cmd → Except Err (List (Item V α))
  | .list i =>
    match itemAt pool i with
    | .error e => .error e
    | .ok it =>
      match listView it.tex with
      | .error e => .error e
      | .ok (_, t) => .ok (pool.set i ⟨it.mesh, t⟩)
  | .padded i =>
    match itemAt pool i with
    | .error e => .error e
    | .ok it =>
      match paddedView z it.tex with
      | .error e => .error e
      | .ok (_, t) => .ok (pool.set i ⟨it.mesh, t⟩)
  | .packed i =>
    match itemAt pool i with
    | .error e => .error e
    | .ok it =>
      match packedView it.tex with
      | .error e => .error e
      | .ok (_, t) => .ok (pool.set i ⟨it.mesh, t⟩)
  | .get i ix =>
    match itemAt pool i with
    | .error e => .error e
    | .ok it =>
      match lift (ix.select it.mesh), getitem z ix it.tex with
      | .error e, _ => .error e
      | _, .error e => .error e
      | .ok m, .ok (x, t) => finish z (pool.set i ⟨it.mesh, t⟩) m x
  | .extend i n =>
    match itemAt pool i with
    | .error e => .error e
    | .ok it =>
      match extend z n it.tex with
      | .error e => .error e
      | .ok (x, t) => finish z (pool.set i ⟨it.mesh, t⟩) (extendM n it.mesh) x
  | .clone i =>
    match itemAt pool i with
    | .error e => .error e
    | .ok it =>
      match clone z it.tex with
      | .error e => .error e
      | .ok (x, t) => .ok (pool.set i ⟨it.mesh, t⟩ ++ [⟨it.mesh, x⟩])
  | .join i is =>
    match itemAt pool i with
    | .error e => .error e
    | .ok it =>
      match listView it.tex with
      | .error e => .error e
      | .ok (l, t) =>
        match t.num with
        | .int _ => .error .attributeError
        | .list s =>
          match joinLoop t.kind is (pool.set i ⟨it.mesh, t⟩) l s it.mesh with
          | .error e => .error e
          | .ok (l, s, m, pool) => finish z pool m { ofList t.kind l with num := .list s }
  | .scene i =>
    match itemAt pool i with
    | .error e => .error e
    | .ok it =>
      if it.mesh.length = 1 then .ok (pool ++ [it])
      else
        match joinScene it.tex with
        | .error e => .error e
        | .ok (x, t) => finish z (pool.set i ⟨it.mesh, t⟩) (sceneM it.mesh) x
  | .sub i ids =>
    match itemAt pool i with
    | .error e => .error e
    | .ok it =>
      match optE (subM it.mesh ids), submeshes (ids.map (fun s => s.map (fun x => x.2))) it.tex with
      | .error e, _ => .error e
      | _, .error e => .error e
      | .ok m, .ok (x, t) => finish z (pool.set i ⟨it.mesh, t⟩) m x

/-- A program. -/
def run (z : α) : List Cmd → List (Item V α) → Except Err (List (Item V α))
  | [], pool => .ok pool
  | c :: cs, pool =>
    match step z pool c with
    | .error e => .error e
    | .ok pool => run z cs pool

/-! ### Specification -/

/-- The largest length. -/
def maxLen (c : List (List α)) : Nat := (c.map List.length).foldl max 0

/-- The rows of a padded tensor begin with the features of the meshes and have the length of the longest of them. -/
def PadOk (k : Kind) (p : Pad α) (c : List (List α)) : Prop :=
  p.rank = k.rank ∧ p.width = maxLen c ∧ List.Forall₂ (fun row x => x <+: row ∧ row.length = p.width) p.rows c

/-- The texture object has the features `c`, whichever views have been computed; counts and `valid` left open. -/
structure Pre (t : Tex α) (c : List (List α)) : Prop where
  list : ∀ l, t.list = some l → l = c
  pad : ∀ p, t.padded = some p → PadOk t.kind p c
  any : t.list.isSome ∨ t.padded.isSome
  hN : t.N = c.length
  ne : ∃ y ∈ c, y ≠ []
  emp : t.padded = none → isempty t = false

/-- The texture object has the features `c` and the counts that belong to them. -/
structure Rep (t : Tex α) (c : List (List α)) : Prop extends Pre t c where
  num : t.num = .list (c.map List.length)
  val : true ∈ t.valid

/-- Some mesh of the batch is valid. -/
def Live (m : Batch V) : Prop := ∃ x ∈ m, x.1 = true ∧ x.2 ≠ []

/-- The features that `f` gives to the elements of a batch. -/
def feats (f : V → α) (m : Batch V) : List (List α) := m.map (fun x => x.2.map f)

/-- The texture gives element `v` of the meshes the feature `f v`. -/
def Good (k : Kind) (f : V → α) (it : Item V α) : Prop := it.tex.kind = k ∧ Live it.mesh ∧ Rep it.tex (feats f it.mesh)

instance (m : Batch V) : Decidable (Live m) :=
  decidable_of_iff (m.any (fun x => x.1 && !x.2.isEmpty) = true) (by simp [Live])

/-- What the commands do to the meshes alone.  `none`: an index out of range, `extend(0)`, or a new batch without a valid mesh. -/
def meshStep (ms : List (Batch V)) : Cmd → Option (List (Batch V))
  | .list i => if i < ms.length then some ms else none
  | .padded i => if i < ms.length then some ms else none
  | .packed i => if i < ms.length then some ms else none
  | .get i ix =>
    match ms[i]? with
    | none => none
    | some m =>
      match ix.select m with
      | .error _ => none
      | .ok m' => if Live m' then some (ms ++ [m']) else none
  | .extend i n =>
    match ms[i]? with
    | none => none
    | some m => if n = 0 then none else some (ms ++ [m.flatMap (List.replicate n)])
  | .clone i =>
    match ms[i]? with
    | none => none
    | some m => some (ms ++ [m])
  | .join i is =>
    match (i :: is).mapM (fun j => ms[j]?) with
    | none => none
    | some l => some (ms ++ [l.flatten])
  | .scene i =>
    match ms[i]? with
    | none => none
    | some m => some (ms ++ [if m.length = 1 then m else sceneM m])
  | .sub i ids =>
    match ms[i]? with
    | none => none
    | some m =>
      match subM m ids with
      | none => none
      | some m' => if Live m' then some (ms ++ [m']) else none

def meshRun : List Cmd → List (Batch V) → Option (List (Batch V))
  | [], ms => some ms
  | c :: cs, ms =>
    match meshStep ms c with
    | none => none
    | some ms => meshRun cs ms

/-! ### Lemmas -/

/-- The texture with its list view computed. -/
def withList (t : Tex α) (c : List (List α)) : Tex α := { t with list := some c }

/-- The texture with its padded view computed. -/
def withPadded (t : Tex α) (p : Pad α) : Tex α := { t with padded := some p }

theorem withList_num (t : Tex α) (c : List (List α)) : (withList t c).num = t.num := rfl
theorem withList_kind (t : Tex α) (c : List (List α)) : (withList t c).kind = t.kind := rfl
theorem withPadded_num (t : Tex α) (p : Pad α) : (withPadded t p).num = t.num := rfl
theorem withPadded_kind (t : Tex α) (p : Pad α) : (withPadded t p).kind = t.kind := rfl

theorem maxLen_eq {c : List (List α)} {S : Nat} (h : ∀ y ∈ c, y.length ≤ S) (h' : ∃ y ∈ c, y.length = S) : maxLen c = S := by
  obtain ⟨y, hy, rfl⟩ := h'
  have hge := StructUtils.foldl_max_ge (c.map List.length) 0
  have h1 : y.length ≤ maxLen c := hge.2 _ (List.mem_map_of_mem hy)
  rcases StructUtils.foldl_max_mem (c.map List.length) 0 with h2 | h2
  · have : maxLen c = 0 := h2
    omega
  · obtain ⟨z, hz, e⟩ := List.mem_map.1 h2
    have : maxLen c = z.length := e.symm
    have := h z hz
    omega

theorem le_maxLen {c : List (List α)} {y : List α} (hy : y ∈ c) : y.length ≤ maxLen c :=
  (StructUtils.foldl_max_ge (c.map List.length) 0).2 _ (List.mem_map_of_mem hy)

theorem maxLen_mem {c : List (List α)} (h : c ≠ []) : ∃ y ∈ c, y.length = maxLen c := by
  rcases StructUtils.foldl_max_mem (c.map List.length) 0 with h2 | h2
  · obtain ⟨y, hy⟩ := List.exists_mem_of_ne_nil c h
    refine ⟨y, hy, ?_⟩
    have := le_maxLen hy
    have e : maxLen c = 0 := h2
    omega
  · obtain ⟨z, hz, e⟩ := List.mem_map.1 h2
    exact ⟨z, hz, e⟩

theorem paddedView_pre (z : α) {t : Tex α} {c : List (List α)} (h : Pre t c) :
    ∃ p, paddedView z t = .ok (p, withPadded t p) ∧ PadOk t.kind p c := by
  unfold paddedView
  cases hp : t.padded with
  | some p =>
    refine ⟨p, ?_, h.pad p hp⟩
    show Except.ok (p, t) = Except.ok (p, { t with padded := some p })
    rw [← hp]
  | none =>
    have hl : ∃ l, t.list = some l := by
      rcases h.any with h1 | h1
      · exact Option.isSome_iff_exists.1 h1
      · rw [hp] at h1; simp at h1
    obtain ⟨l, hl⟩ := hl
    obtain rfl := h.list l hl
    obtain ⟨S, h1, h2, h3⟩ := StructUtils.listToPadded_auto l z h.ne
    simp only [h.emp hp, hl, h3, Bool.false_eq_true, if_false]
    have hw : ((l.map (expectedRow S z)).headD []).length = S := by
      cases l with
      | nil => obtain ⟨y, hy, -⟩ := h.ne; simp at hy
      | cons y ys =>
        have := h1 y (by simp)
        simp only [List.map_cons, List.headD_cons, expectedRow, List.length_append, List.length_replicate]
        omega
    refine ⟨⟨t.kind.rank, ((l.map (expectedRow S z)).headD []).length, l.map (expectedRow S z)⟩, by simp only [withPadded, hl], rfl, ?_, ?_⟩
    · show _ = maxLen l
      rw [hw, maxLen_eq h1 h2]
    · show List.Forall₂ (fun row x => x <+: row ∧ row.length = ((l.map (expectedRow S z)).headD []).length) (l.map (expectedRow S z)) l
      rw [hw, List.forall₂_map_left_iff]
      refine List.forall₂_same.2 fun y hy => ⟨?_, ?_⟩
      · exact List.prefix_append _ _
      · have := h1 y hy
        simp only [expectedRow, List.length_append, List.length_replicate]
        omega

theorem pre_padded {t : Tex α} {c : List (List α)} (h : Pre t c) {p : Pad α} (hp : PadOk t.kind p c) : Pre (withPadded t p) c :=
  ⟨h.list, fun q hq => by cases hq; exact hp, .inr rfl, h.hN, h.ne, fun hq => by simp [withPadded] at hq⟩

theorem not_empty {t : Tex α} {c : List (List α)} (h : Rep t c) : isempty t = false := by
  obtain ⟨y, hy, -⟩ := h.ne
  have h1 : 0 < c.length := List.length_pos_of_mem hy
  simp only [isempty, h.hN, Bool.or_eq_false_iff, List.all_eq_false]
  exact ⟨by simp; rintro rfl; simp at h1, true, h.val, by simp⟩

theorem zipWith_take {rows c : List (List α)} {w : Nat} (h : List.Forall₂ (fun row x => x <+: row ∧ row.length = w) rows c) :
    List.zipWith (fun row n => row.take n) rows (c.map List.length) = c := by
  induction h with
  | nil => rfl
  | cons h1 _ ih => simp only [List.map_cons, List.zipWith_cons_cons, ih]; rw [← List.prefix_iff_eq_take.1 h1.1]

theorem listView_rep {t : Tex α} {c : List (List α)} (h : Rep t c) :
    listView t = .ok (c, withList t c) := by
  unfold listView
  cases hl : t.list with
  | some l =>
    obtain rfl := h.list l hl
    show Except.ok (l, t) = Except.ok (l, { t with list := some l })
    rw [← hl]
  | none =>
    obtain ⟨p, hp⟩ : ∃ p, t.padded = some p := by
      rcases h.any with h1 | h1
      · rw [hl] at h1; simp at h1
      · exact Option.isSome_iff_exists.1 h1
    obtain ⟨-, -, h3⟩ := h.pad p hp
    have e : paddedToList p.rows (some (c.map List.length)) = .ok c := by
      simp only [paddedToList, List.length_map, h3.length_eq, ne_eq, not_true_eq_false, if_false, zipWith_take h3]
    simp only [not_empty h, hp, h.num, e, Bool.false_eq_true, if_false, withList]

theorem rep_list {t : Tex α} {c : List (List α)} (h : Rep t c) : Rep (withList t c) c :=
  ⟨⟨fun l hl => by cases hl; rfl, h.pad, .inl rfl, h.hN, h.ne, h.emp⟩, h.num, h.val⟩

theorem rep_padded {t : Tex α} {c : List (List α)} (h : Rep t c) {p : Pad α} (hp : PadOk t.kind p c) : Rep (withPadded t p) c :=
  ⟨pre_padded h.toPre hp, h.num, h.val⟩

theorem pre_ofList (k : Kind) {c : List (List α)} (h : ∃ y ∈ c, y ≠ []) : Pre (ofList k c) c := by
  refine ⟨fun l hl => by cases hl; rfl, fun p hp => by simp [ofList] at hp, .inl rfl, rfl, h, fun _ => ?_⟩
  obtain ⟨y, hy, -⟩ := h
  have h1 : 0 < c.length := List.length_pos_of_mem hy
  simp only [isempty, ofList, Bool.or_eq_false_iff, List.all_eq_false]
  exact ⟨by simp; rintro rfl; simp at h1, true, by rw [List.mem_replicate]; exact ⟨by omega, rfl⟩, by simp⟩

theorem feats_ne {m : Batch V} (f : V → α) (h : Live m) : ∃ y ∈ feats f m, y ≠ [] := by
  obtain ⟨x, hx, -, h2⟩ := h
  exact ⟨x.2.map f, List.mem_map_of_mem (f := fun x : Bool × List V => x.2.map f) hx, by simpa using h2⟩

theorem feats_len (f : V → α) (m : Batch V) : (feats f m).map List.length = m.map (fun x => x.2.length) := by
  simp [feats, Function.comp_def]

theorem live_valid {m : Batch V} (h : Live m) : true ∈ validOf m := by
  obtain ⟨x, hx, h1, h2⟩ := h
  refine List.mem_map.2 ⟨x, hx, ?_⟩
  simp [h1, h2]

theorem pre_num {t : Tex α} {c : List (List α)} (h : Pre t c) (n : Nums) : Pre { t with num := n } c :=
  ⟨h.list, h.pad, h.any, h.hN, h.ne, h.emp⟩

theorem attach_pre (z : α) {m : Batch V} (f : V → α) {t : Tex α} (h : Pre t (feats f m)) (hm : Live m) :
    ∃ t', attach z m t = .ok t' ∧ t'.kind = t.kind ∧ Rep t' (feats f m) := by
  obtain ⟨p, e, hp⟩ := paddedView_pre z h
  have hc : checkShapes t.kind p m.length ((m.map (fun x => x.2.length)).foldl max 0) = true := by
    obtain ⟨h1, h2, h3⟩ := hp
    have h4 := h3.length_eq
    have h5 : (feats f m).length = m.length := by simp [feats]
    simp only [checkShapes, h4, h5, h2, maxLen, feats_len, h1]
    cases t.kind <;> simp [Kind.rank]
  have hv : (validOf m).any id = true := List.any_eq_true.2 ⟨true, live_valid hm, rfl⟩
  refine ⟨{ t with padded := some p, num := .list (if (validOf m).any id then m.map (fun x => x.2.length) else []), valid := validOf m },
    by simp only [attach, e, withPadded_kind, hc, if_true]; rfl, rfl, ?_⟩
  refine ⟨?_, ?_, live_valid hm⟩
  · exact ⟨h.list, fun q hq => by cases hq; exact hp, .inr rfl, h.hN, h.ne, fun hq => by simp at hq⟩
  · simp only [hv, if_true, feats_len]

theorem select_map {X Y : Type} (g : X → Y) (ix : Index) (l : List X) :
    ix.select (l.map g) = (ix.select l).map (List.map g) := by
  have hp : ∀ is : List Int, pick (l.map g) is = (pick l is).map (List.map g) := by
    intro is
    unfold pick
    induction is with
    | nil => rfl
    | cons i is ih =>
      rw [List.mapM_cons, List.mapM_cons, ih, List.length_map]
      cases hq : pyIndex l.length i with
      | none => simp [bind, Except.bind, Except.map]
      | some k =>
        simp only [Option.bind_some, List.getElem?_map]
        cases hk : l[k]? with
        | none => simp [bind, Except.bind, Except.map]
        | some x =>
          simp only [Option.map_some, bind, Except.bind, pure, Except.pure]
          cases List.mapM (m := Except StructUtils.Err) _ is with
          | error e => rfl
          | ok r => rfl
  cases ix with
  | int i => exact hp [i]
  | ints is => exact hp is
  | mask b => exact hp (nonzero b)
  | slice a b => simp [Index.select, Except.map, List.map_drop, List.map_take]

theorem select_int_length {X : Type} {l r : List X} {i : Int} (h : (Index.int i).select l = .ok r) : ∃ x, r = [x] := by
  change pick l [i] = .ok r at h
  unfold pick at h
  rw [List.mapM_cons] at h
  cases hq : (pyIndex l.length i).bind (fun k => l[k]?) with
  | none => simp [hq, bind, Except.bind] at h
  | some x =>
    simp only [hq, List.mapM_nil, bind, Except.bind, pure, Except.pure] at h
    injection h with h
    exact ⟨x, h.symm⟩

theorem numItem_ok {ix : Index} {s s' : List Nat} (h : ix.select s = .ok s') : ∃ n, numItem ix (.list s) = .ok n := by
  cases ix with
  | int i =>
    obtain ⟨n, rfl⟩ := select_int_length h
    exact ⟨.int n, by simp only [numItem, lift, h]⟩
  | ints is => exact ⟨.list s', by simp only [numItem, lift, h]⟩
  | mask is => exact ⟨.list s', by simp only [numItem, lift, h]⟩
  | slice a b => exact ⟨.list s', by simp only [numItem, lift, h]⟩

theorem getitem_rep (z : α) (f : V → α) {m m' : Batch V} {t : Tex α} (h : Rep t (feats f m)) {ix : Index} (hs : ix.select m = .ok m')
    (hm : Live m') : ∃ x, getitem z ix t = .ok (x, withList t (feats f m)) ∧ x.kind = t.kind ∧ Pre x (feats f m') := by
  have h1 : ix.select (feats f m) = .ok (feats f m') := by
    show ix.select (m.map _) = _
    rw [select_map, hs]; rfl
  obtain ⟨n, hn⟩ : ∃ n, numItem ix t.num = .ok n := by
    rw [h.num]
    exact numItem_ok (s' := (feats f m').map List.length) (by rw [select_map, h1]; rfl)
  have hne : feats f m' ≠ [] := by
    obtain ⟨y, hy, -⟩ := feats_ne f hm
    exact List.ne_nil_of_mem hy
  refine ⟨{ ofList t.kind (feats f m') with num := n }, ?_, rfl, pre_num (pre_ofList _ (feats_ne f hm)) n⟩
  simp only [getitem, listView_rep h, withList_num, withList_kind, lift, h1, hn, hne, and_false, if_false]

theorem forall₂_rep {rows c : List (List α)} {w : Nat} (n : Nat)
    (h : List.Forall₂ (fun row x => x <+: row ∧ row.length = w) rows c) :
    List.Forall₂ (fun row x => x <+: row ∧ row.length = w) (rows.flatMap (List.replicate n)) (c.flatMap (List.replicate n)) := by
  induction h with
  | nil => exact .nil
  | cons h1 _ ih =>
    simp only [List.flatMap_cons]
    refine List.rel_append ?_ ih
    clear ih
    induction n with
    | zero => exact .nil
    | succ n ih => exact .cons h1 ih

theorem feats_extend (f : V → α) (n : Nat) (m : Batch V) : feats f (extendM n m) = (feats f m).flatMap (List.replicate n) := by
  unfold feats extendM
  induction m with
  | nil => rfl
  | cons x m ih => simp only [List.flatMap_cons, List.map_append, List.map_cons, ih, List.map_replicate]

theorem maxLen_extend {n : Nat} (hn : n ≠ 0) {c : List (List α)} (hc : c ≠ []) : maxLen (c.flatMap (List.replicate n)) = maxLen c := by
  refine maxLen_eq (fun y hy => ?_) ?_
  · obtain ⟨x, hx, hy⟩ := List.mem_flatMap.1 hy
    rw [(List.mem_replicate.1 hy).2]
    exact le_maxLen hx
  · obtain ⟨y, hy, e⟩ := maxLen_mem hc
    exact ⟨y, List.mem_flatMap.2 ⟨y, hy, List.mem_replicate.2 ⟨hn, rfl⟩⟩, e⟩

theorem live_extend {n : Nat} (hn : n ≠ 0) {m : Batch V} (h : Live m) : Live (extendM n m) := by
  obtain ⟨x, hx, h1⟩ := h
  exact ⟨x, List.mem_flatMap.2 ⟨x, hx, List.mem_replicate.2 ⟨hn, rfl⟩⟩, h1⟩

theorem extend_rep (z : α) (f : V → α) {m : Batch V} {t : Tex α} (h : Rep t (feats f m)) (hm : Live m) {n : Nat} (hn : n ≠ 0) :
    ∃ p x, extend z n t = .ok (x, withPadded t p) ∧ PadOk t.kind p (feats f m) ∧ x.kind = t.kind ∧ Pre x (feats f (extendM n m)) := by
  obtain ⟨p, e, hp⟩ := paddedView_pre z h.toPre
  obtain ⟨h1, h2, h3⟩ := hp
  refine ⟨p, ⟨t.kind, none, some ⟨p.rank, p.width, p.rows.flatMap (List.replicate n)⟩, (p.rows.flatMap (List.replicate n)).length,
      .list (((feats f m).map List.length).flatMap (List.replicate n)), List.replicate (p.rows.flatMap (List.replicate n)).length true⟩, ?_, ⟨h1, h2, h3⟩, rfl, ?_⟩
  · simp only [extend, hn, e, withPadded_num, withPadded_kind, h.num, ofPadded, h1, if_false, ne_eq, not_true_eq_false]
  · have hr := forall₂_rep n h3
    rw [← feats_extend] at hr
    refine ⟨fun l hl => by simp at hl, fun q hq => ?_, .inr rfl, hr.length_eq, feats_ne f (live_extend hn hm), fun hq => by simp at hq⟩
    cases hq
    have hc : feats f m ≠ [] := by
      obtain ⟨y, hy, -⟩ := feats_ne f hm
      exact List.ne_nil_of_mem hy
    exact ⟨h1, by rw [feats_extend, maxLen_extend hn hc, ← h2], hr⟩

theorem clone_rep (z : α) {c : List (List α)} {t : Tex α} (h : Rep t c) :
    ∃ p x, clone z t = .ok (x, withPadded t p) ∧ PadOk t.kind p c ∧ x.kind = t.kind ∧ Rep x c := by
  obtain ⟨p, e, hp⟩ := paddedView_pre z h.toPre
  refine ⟨p, withPadded t p, ?_, hp, rfl, rep_padded h hp⟩
  have h4 := hp.2.2.length_eq
  simp only [clone, e, withPadded_num, withPadded_kind, ofPadded, hp.1, ne_eq, not_true_eq_false, if_false, h.num]
  have : t.N = p.rows.length := by rw [h.hN, h4]
  have e2 : (⟨t.kind, (withPadded t p).list, some p, p.rows.length, .list (c.map List.length), (withPadded t p).valid⟩ : Tex α) = withPadded t p := by
    simp only [withPadded, this, h.num]
  cases hk : t.kind <;> rw [hk] at e2 <;> simp only [e2]

theorem gather_map (f : V → α) {x : List V} {is : List Nat} {r : List V} (h : is.mapM (fun k => x[k]?) = some r) :
    StructUtils.gather (x.map f) is = .ok (r.map f) := by
  unfold StructUtils.gather
  induction is generalizing r with
  | nil => simp at h; subst h; rfl
  | cons i is ih =>
    rw [List.mapM_cons] at h
    cases hi : x[i]? with
    | none => simp [hi] at h
    | some v =>
      cases ht : is.mapM (fun k => x[k]?) with
      | none => simp [hi, ht] at h
      | some r' =>
        simp only [hi, ht, Option.pure_def, Option.bind_eq_bind, Option.bind_some, Option.some.injEq] at h
        subst h
        rw [List.mapM_cons, ih ht]
        simp only [List.getElem?_map, hi, Option.map_some, bind, Except.bind, pure, Except.pure, List.map_cons]

theorem subRows_map (f : V → α) {x : List V} {i : List (Bool × List Nat)} {a : Batch V}
    (h : i.mapM (fun s => (s.2.mapM fun k => x[k]?).map fun r => (s.1, r)) = some a) :
    subRows (x.map f) (i.map (fun s => s.2)) = .ok (feats f a) := by
  unfold subRows
  induction i generalizing a with
  | nil => simp at h; subst h; rfl
  | cons s i ih =>
    rw [List.mapM_cons] at h
    cases hs : s.2.mapM (fun k => x[k]?) with
    | none => simp [hs] at h
    | some r =>
      cases ht : i.mapM (fun s => (s.2.mapM fun k => x[k]?).map fun r => (s.1, r)) with
      | none => simp [hs, ht] at h
      | some a' =>
        simp only [hs, ht, Option.pure_def, Option.bind_eq_bind, Option.bind_some, Option.map_some, Option.some.injEq] at h
        subst h
        rw [List.map_cons, List.mapM_cons, ih ht, gather_map f hs]
        rfl

theorem subAll_map (f : V → α) {m m' : Batch V} {ids : List (List (Bool × List Nat))} (h : subM m ids = some m') :
    ids.length = m.length ∧ subAll (feats f m) (ids.map (fun s => s.map (fun x => x.2))) = .ok (feats f m') := by
  induction m generalizing ids m' with
  | nil =>
    cases ids with
    | nil => simp [subM] at h; subst h; exact ⟨rfl, rfl⟩
    | cons i ids => simp [subM] at h
  | cons x m ih =>
    cases ids with
    | nil => simp [subM] at h
    | cons i ids =>
      cases ha : i.mapM (fun s => (s.2.mapM fun k => x.2[k]?).map fun r => (s.1, r)) with
      | none => simp [subM, ha] at h
      | some a =>
        cases hb : subM m ids with
        | none => simp [subM, ha, hb] at h
        | some b =>
          simp only [subM, ha, hb, Option.pure_def, Option.bind_eq_bind, Option.bind_some, Option.some.injEq] at h
          subst h
          obtain ⟨h1, h2⟩ := ih hb
          refine ⟨by simp [h1], ?_⟩
          have h3 : feats f (x :: m) = x.2.map f :: feats f m := rfl
          rw [h3, List.map_cons]
          simp only [subAll, subRows_map f ha, h2]
          simp [feats]

theorem submeshes_rep (f : V → α) {m m' : Batch V} {t : Tex α} (h : Rep t (feats f m)) {ids : List (List (Bool × List Nat))}
    (hs : subM m ids = some m') (hm : Live m') :
    ∃ x, submeshes (ids.map (fun s => s.map (fun x => x.2))) t = .ok (x, withList t (feats f m)) ∧ x.kind = t.kind ∧
      Pre x (feats f m') := by
  obtain ⟨h1, h2⟩ := subAll_map f hs
  refine ⟨ofList t.kind (feats f m'), ?_, rfl, pre_ofList _ (feats_ne f hm)⟩
  have h3 : (feats f m).length = m.length := by simp [feats]
  simp only [submeshes, listView_rep h, withList_kind, List.length_map, h1, h3, ne_eq, not_true_eq_false, if_false, h2]

theorem feats_scene (f : V → α) (m : Batch V) : feats f (sceneM m) = [(feats f m).flatten] := by
  simp only [feats, sceneM, List.map_cons, List.map_nil]
  congr 1
  induction m with
  | nil => rfl
  | cons x m ih => simp [ih]

theorem live_scene {m : Batch V} (h : Live m) : Live (sceneM m) := by
  obtain ⟨x, hx, h1, h2⟩ := h
  refine ⟨_, List.mem_singleton.2 rfl, List.any_eq_true.2 ⟨x, hx, h1⟩, ?_⟩
  obtain ⟨v, hv⟩ := List.exists_mem_of_ne_nil _ h2
  exact List.ne_nil_of_mem (List.mem_flatMap.2 ⟨x, hx, hv⟩)

theorem joinScene_rep (f : V → α) {m : Batch V} {t : Tex α} (h : Rep t (feats f m)) (hm : Live m) :
    ∃ x, joinScene t = .ok (x, withList t (feats f m)) ∧ x.kind = t.kind ∧ Pre x (feats f (sceneM m)) := by
  have hc : feats f m ≠ [] := by
    obtain ⟨y, hy, -⟩ := feats_ne f hm
    exact List.ne_nil_of_mem hy
  refine ⟨ofList t.kind [(feats f m).flatten], by simp only [joinScene, listView_rep h, withList_kind, hc, if_false], rfl, ?_⟩
  rw [feats_scene]
  exact pre_ofList _ (by rw [← feats_scene]; exact feats_ne f (live_scene hm))

/-! ### Programs -/

/-- All items of a pool are good. -/
def AllGood (k : Kind) (f : V → α) (pool : List (Item V α)) : Prop := ∀ it ∈ pool, Good k f it

theorem allGood_set {k : Kind} {f : V → α} {pool : List (Item V α)} (h : AllGood k f pool) (i : Nat) {it : Item V α} (hit : Good k f it) :
    AllGood k f (pool.set i it) := by
  intro x hx
  rcases List.mem_or_eq_of_mem_set hx with hx | rfl
  · exact h x hx
  · exact hit

theorem allGood_push {k : Kind} {f : V → α} {pool : List (Item V α)} (h : AllGood k f pool) {it : Item V α} (hit : Good k f it) :
    AllGood k f (pool ++ [it]) := by
  intro x hx
  rcases List.mem_append.1 hx with hx | hx
  · exact h x hx
  · rw [List.mem_singleton.1 hx]; exact hit

theorem map_set_mesh {pool : List (Item V α)} {i : Nat} {it : Item V α} (hi : pool[i]? = some it) (t : Tex α) :
    (pool.set i ⟨it.mesh, t⟩).map Item.mesh = pool.map Item.mesh := by
  rw [List.map_set]
  have h : (pool.map Item.mesh)[i]? = some it.mesh := by simp [hi]
  obtain ⟨hl, e⟩ := List.getElem?_eq_some_iff.1 h
  show (pool.map Item.mesh).set i it.mesh = _
  rw [← e, List.set_getElem_self]

theorem getElem?_mesh {pool : List (Item V α)} {i : Nat} {m : Batch V} (h : (pool.map Item.mesh)[i]? = some m) :
    ∃ it, pool[i]? = some it ∧ it.mesh = m := by
  rw [List.getElem?_map, Option.map_eq_some_iff] at h
  exact h

theorem finish_good (z : α) {k : Kind} {f : V → α} {pool : List (Item V α)} (h : AllGood k f pool) {m : Batch V} (hm : Live m) {x : Tex α}
    (hk : x.kind = k) (hx : Pre x (feats f m)) :
    ∃ pool', finish z pool m x = .ok pool' ∧ pool'.map Item.mesh = pool.map Item.mesh ++ [m] ∧ AllGood k f pool' := by
  obtain ⟨t', e, h1, h2⟩ := attach_pre z f hx hm
  exact ⟨pool ++ [⟨m, t'⟩], by simp only [finish, e], by simp, allGood_push h ⟨h1.trans hk, hm, h2⟩⟩

theorem joinLoop_good {k : Kind} {f : V → α} (is : List Nat) {pool : List (Item V α)} (h : AllGood k f pool) {ls : List (Batch V)}
    (hj : is.mapM (fun j => (pool.map Item.mesh)[j]?) = some ls) (l : List (List α)) (s : List Nat) (m : Batch V) :
    ∃ pool', joinLoop k is pool l s m = .ok (l ++ feats f ls.flatten, s ++ (feats f ls.flatten).map List.length, m ++ ls.flatten, pool') ∧
      pool'.map Item.mesh = pool.map Item.mesh ∧ AllGood k f pool' := by
  induction is generalizing pool ls l s m with
  | nil =>
    simp at hj; subst hj
    exact ⟨pool, by simp [joinLoop, feats], rfl, h⟩
  | cons i is ih =>
    rw [List.mapM_cons] at hj
    cases hi : (pool.map Item.mesh)[i]? with
    | none => rw [hi] at hj; simp at hj
    | some m1 =>
      cases ht : is.mapM (fun j => (pool.map Item.mesh)[j]?) with
      | none => rw [hi, ht] at hj; simp at hj
      | some ls' =>
        rw [hi, ht] at hj
        simp only [Option.pure_def, Option.bind_eq_bind, Option.bind_some, Option.some.injEq] at hj
        subst hj
        obtain ⟨it, hit, rfl⟩ := getElem?_mesh hi
        obtain ⟨g1, g2, g3⟩ := h it (List.mem_of_getElem? hit)
        have hset : AllGood k f (pool.set i ⟨it.mesh, withList it.tex (feats f it.mesh)⟩) :=
          allGood_set h i ⟨g1, g2, rep_list g3⟩
        have hm := map_set_mesh hit (withList it.tex (feats f it.mesh))
        obtain ⟨pool', e1, e2, e3⟩ := ih hset (ls := ls') (by rw [hm]; exact ht) (l ++ feats f it.mesh)
          (s ++ (feats f it.mesh).map List.length) (m ++ it.mesh)
        refine ⟨pool', ?_, e2.trans hm, e3⟩
        have ef : feats f (it.mesh :: ls').flatten = feats f it.mesh ++ feats f ls'.flatten := by simp [feats]
        simp only [joinLoop, itemAt, hit, g1, ne_eq, not_true_eq_false, if_false, listView_rep g3, withList_num, g3.num]
        rw [e1, ef]
        simp

theorem step_good (z : α) {k : Kind} {f : V → α} {pool : List (Item V α)} (h : AllGood k f pool) (c : Cmd) {ms : List (Batch V)}
    (hs : meshStep (pool.map Item.mesh) c = some ms) :
    ∃ pool', step z pool c = .ok pool' ∧ pool'.map Item.mesh = ms ∧ AllGood k f pool' := by
  cases c with
  | list i =>
    simp only [meshStep, List.length_map, Option.ite_none_right_eq_some, Option.some.injEq] at hs
    obtain ⟨hi, rfl⟩ := hs
    have hit : pool[i]? = some pool[i] := List.getElem?_eq_getElem hi
    obtain ⟨g1, g2, g3⟩ := h pool[i] (List.getElem_mem hi)
    exact ⟨pool.set i ⟨pool[i].mesh, withList pool[i].tex (feats f pool[i].mesh)⟩, by simp only [step, itemAt, hit, listView_rep g3],
      map_set_mesh hit _, allGood_set h i ⟨g1, g2, rep_list g3⟩⟩
  | padded i =>
    simp only [meshStep, List.length_map, Option.ite_none_right_eq_some, Option.some.injEq] at hs
    obtain ⟨hi, rfl⟩ := hs
    have hit : pool[i]? = some pool[i] := List.getElem?_eq_getElem hi
    obtain ⟨g1, g2, g3⟩ := h pool[i] (List.getElem_mem hi)
    obtain ⟨p, e, hp⟩ := paddedView_pre z g3.toPre
    exact ⟨pool.set i ⟨pool[i].mesh, withPadded pool[i].tex p⟩, by simp only [step, itemAt, hit, e],
      map_set_mesh hit _, allGood_set h i ⟨g1, g2, rep_padded g3 hp⟩⟩
  | packed i =>
    simp only [meshStep, List.length_map, Option.ite_none_right_eq_some, Option.some.injEq] at hs
    obtain ⟨hi, rfl⟩ := hs
    have hit : pool[i]? = some pool[i] := List.getElem?_eq_getElem hi
    obtain ⟨g1, g2, g3⟩ := h pool[i] (List.getElem_mem hi)
    have hc : (feats f pool[i].mesh).isEmpty = false := by
      obtain ⟨y, hy, -⟩ := feats_ne f g2
      simpa using List.ne_nil_of_mem hy
    refine ⟨pool.set i ⟨pool[i].mesh, withList pool[i].tex (feats f pool[i].mesh)⟩,
      ?_, map_set_mesh hit _, allGood_set h i ⟨g1, g2, rep_list g3⟩⟩
    simp only [step, itemAt, hit, packedView, not_empty g3, listView_rep g3, listToPacked, hc, Bool.false_eq_true, if_false]
  | get i ix =>
    simp only [meshStep] at hs
    cases hi : (pool.map Item.mesh)[i]? with
    | none => rw [hi] at hs; simp at hs
    | some m =>
      rw [hi] at hs
      simp only at hs
      cases hx : ix.select m with
      | error e => rw [hx] at hs; simp at hs
      | ok m' =>
        rw [hx] at hs
        simp only [Option.ite_none_right_eq_some, Option.some.injEq] at hs
        obtain ⟨hl, rfl⟩ := hs
        obtain ⟨it, hit, rfl⟩ := getElem?_mesh hi
        obtain ⟨g1, g2, g3⟩ := h it (List.mem_of_getElem? hit)
        obtain ⟨x, e, hk, hp⟩ := getitem_rep z f g3 hx hl
        have hset := allGood_set h i (it := ⟨it.mesh, withList it.tex (feats f it.mesh)⟩) ⟨g1, g2, rep_list g3⟩
        obtain ⟨pool', e1, e2, e3⟩ := finish_good z hset hl (hk.trans g1) hp
        refine ⟨pool', ?_, by rw [e2, map_set_mesh hit], e3⟩
        simp only [step, itemAt, hit, lift, hx, e, e1]
  | extend i n =>
    simp only [meshStep] at hs
    cases hi : (pool.map Item.mesh)[i]? with
    | none => rw [hi] at hs; simp at hs
    | some m =>
      rw [hi] at hs
      simp only [Option.ite_none_left_eq_some, Option.some.injEq] at hs
      obtain ⟨hn, rfl⟩ := hs
      obtain ⟨it, hit, rfl⟩ := getElem?_mesh hi
      obtain ⟨g1, g2, g3⟩ := h it (List.mem_of_getElem? hit)
      obtain ⟨p, x, e, hpk, hk, hp⟩ := extend_rep z f g3 g2 hn
      have hset := allGood_set h i (it := ⟨it.mesh, withPadded it.tex p⟩) ⟨g1, g2, rep_padded g3 hpk⟩
      obtain ⟨pool', e1, e2, e3⟩ := finish_good z hset (live_extend hn g2) (hk.trans g1) hp
      refine ⟨pool', ?_, by rw [e2, map_set_mesh hit]; rfl, e3⟩
      simp only [step, itemAt, hit, e, e1]
  | clone i =>
    simp only [meshStep] at hs
    cases hi : (pool.map Item.mesh)[i]? with
    | none => rw [hi] at hs; simp at hs
    | some m =>
      rw [hi] at hs
      simp only [Option.some.injEq] at hs
      subst hs
      obtain ⟨it, hit, rfl⟩ := getElem?_mesh hi
      obtain ⟨g1, g2, g3⟩ := h it (List.mem_of_getElem? hit)
      obtain ⟨p, x, e, hpk, hk, hp⟩ := clone_rep z g3
      have hset := allGood_set h i (it := ⟨it.mesh, withPadded it.tex p⟩) ⟨g1, g2, rep_padded g3 hpk⟩
      exact ⟨pool.set i ⟨it.mesh, withPadded it.tex p⟩ ++ [⟨it.mesh, x⟩], by simp only [step, itemAt, hit, e], by simp [map_set_mesh hit], allGood_push hset ⟨hk.trans g1, g2, hp⟩⟩
  | join i is =>
    simp only [meshStep] at hs
    cases hj : (i :: is).mapM (fun j => (pool.map Item.mesh)[j]?) with
    | none => rw [hj] at hs; simp at hs
    | some ls =>
      rw [hj] at hs
      simp only [Option.some.injEq] at hs
      subst hs
      rw [List.mapM_cons] at hj
      cases hi : (pool.map Item.mesh)[i]? with
      | none => rw [hi] at hj; simp at hj
      | some m1 =>
        cases ht : is.mapM (fun j => (pool.map Item.mesh)[j]?) with
        | none => rw [hi, ht] at hj; simp at hj
        | some ls' =>
          rw [hi, ht] at hj
          simp only [Option.pure_def, Option.bind_eq_bind, Option.bind_some, Option.some.injEq] at hj
          subst hj
          obtain ⟨it, hit, rfl⟩ := getElem?_mesh hi
          obtain ⟨g1, g2, g3⟩ := h it (List.mem_of_getElem? hit)
          have hset := allGood_set h i (it := ⟨it.mesh, withList it.tex (feats f it.mesh)⟩) ⟨g1, g2, rep_list g3⟩
          have hm := map_set_mesh hit (withList it.tex (feats f it.mesh))
          obtain ⟨pool1, e1, e2, e3⟩ := joinLoop_good is hset (ls := ls') (by rw [hm]; exact ht) (feats f it.mesh)
            ((feats f it.mesh).map List.length) it.mesh
          have ef : feats f (it.mesh :: ls').flatten = feats f it.mesh ++ feats f ls'.flatten := by simp [feats]
          have hl : Live (it.mesh :: ls').flatten := by
            obtain ⟨x, hx, hx'⟩ := g2
            exact ⟨x, by simp [hx], hx'⟩
          have hpre : Pre { ofList k (feats f (it.mesh :: ls').flatten) with
              num := .list ((feats f it.mesh).map List.length ++ (feats f ls'.flatten).map List.length) } (feats f (it.mesh :: ls').flatten) :=
            pre_num (pre_ofList _ (feats_ne f hl)) _
          obtain ⟨pool', e4, e5, e6⟩ := finish_good z e3 hl rfl hpre
          refine ⟨pool', ?_, by rw [e5, e2, hm], e6⟩
          rw [ef] at e4
          simp only [step, itemAt, hit, listView_rep g3, withList_num, withList_kind, g3.num, g1, e1]
          simpa using e4
  | scene i =>
    simp only [meshStep] at hs
    cases hi : (pool.map Item.mesh)[i]? with
    | none => rw [hi] at hs; simp at hs
    | some m =>
      rw [hi] at hs
      simp only [Option.some.injEq] at hs
      subst hs
      obtain ⟨it, hit, rfl⟩ := getElem?_mesh hi
      have hg := h it (List.mem_of_getElem? hit)
      obtain ⟨g1, g2, g3⟩ := hg
      by_cases h1 : it.mesh.length = 1
      · exact ⟨pool ++ [it], by simp only [step, itemAt, hit, h1, if_true], by simp [h1], allGood_push h ⟨g1, g2, g3⟩⟩
      · obtain ⟨x, e, hk, hp⟩ := joinScene_rep f g3 g2
        have hset := allGood_set h i (it := ⟨it.mesh, withList it.tex (feats f it.mesh)⟩) ⟨g1, g2, rep_list g3⟩
        obtain ⟨pool', e1, e2, e3⟩ := finish_good z hset (live_scene g2) (hk.trans g1) hp
        refine ⟨pool', ?_, by rw [e2, map_set_mesh hit, if_neg h1], e3⟩
        simp only [step, itemAt, hit, h1, if_false, e, e1]
  | sub i ids =>
    simp only [meshStep] at hs
    cases hi : (pool.map Item.mesh)[i]? with
    | none => rw [hi] at hs; simp at hs
    | some m =>
      rw [hi] at hs
      simp only at hs
      cases hx : subM m ids with
      | none => rw [hx] at hs; simp at hs
      | some m' =>
        rw [hx] at hs
        simp only [Option.ite_none_right_eq_some, Option.some.injEq] at hs
        obtain ⟨hl, rfl⟩ := hs
        obtain ⟨it, hit, rfl⟩ := getElem?_mesh hi
        obtain ⟨g1, g2, g3⟩ := h it (List.mem_of_getElem? hit)
        obtain ⟨x, e, hk, hp⟩ := submeshes_rep f g3 hx hl
        have hset := allGood_set h i (it := ⟨it.mesh, withList it.tex (feats f it.mesh)⟩) ⟨g1, g2, rep_list g3⟩
        obtain ⟨pool', e1, e2, e3⟩ := finish_good z hset hl (hk.trans g1) hp
        refine ⟨pool', ?_, by rw [e2, map_set_mesh hit], e3⟩
        simp only [step, itemAt, hit, optE, hx, e, e1]

/-- **Features follow the meshes.**  Any program of views, indexing, `extend`, `clone`, `join_meshes_as_batch`, `join_meshes_as_scene` and
`submeshes` that makes sense for the meshes alone runs, makes those meshes, and in every batch the texture gives each vertex (or face) the
feature it had at the start. -/
theorem run_follows (z : α) {k : Kind} {f : V → α} (prog : List Cmd) {pool : List (Item V α)} (h : AllGood k f pool) {ms : List (Batch V)}
    (hs : meshRun prog (pool.map Item.mesh) = some ms) :
    ∃ pool', run z prog pool = .ok pool' ∧ pool'.map Item.mesh = ms ∧ AllGood k f pool' := by
  induction prog generalizing pool ms with
  | nil =>
    simp only [meshRun, Option.some.injEq] at hs
    exact ⟨pool, rfl, hs, h⟩
  | cons c cs ih =>
    simp only [meshRun] at hs
    cases hc : meshStep (pool.map Item.mesh) c with
    | none => rw [hc] at hs; simp at hs
    | some ms1 =>
      rw [hc] at hs
      obtain ⟨pool1, e1, e2, e3⟩ := step_good z h c hc
      subst e2
      obtain ⟨pool', e4, e5, e6⟩ := ih e3 hs
      exact ⟨pool', by simp only [run, e1, e4], e5, e6⟩

/-! ### What can be observed -/

/-- The views of a good item: the list view holds the features mesh by mesh, the packed view their concatenation, the rows of the padded view
begin with them; asking for a view changes none of this. -/
theorem good_views (z : α) {k : Kind} {f : V → α} {it : Item V α} (h : Good k f it) :
    (∃ t, listView it.tex = .ok (it.mesh.map (fun x => x.2.map f), t) ∧ Good k f ⟨it.mesh, t⟩) ∧
    (∃ t, packedView it.tex = .ok (some (it.mesh.flatMap (fun x => x.2.map f)), t) ∧ Good k f ⟨it.mesh, t⟩) ∧
    (∃ p t, paddedView z it.tex = .ok (p, t) ∧ Good k f ⟨it.mesh, t⟩ ∧
      List.Forall₂ (fun row x => x.2.map f <+: row ∧ row.length = p.width) p.rows it.mesh) := by
  obtain ⟨h1, h2, h3⟩ := h
  refine ⟨⟨_, listView_rep h3, h1, h2, rep_list h3⟩, ⟨withList it.tex (feats f it.mesh), ?_, h1, h2, rep_list h3⟩, ?_⟩
  · have hc : (feats f it.mesh).isEmpty = false := by
      obtain ⟨y, hy, -⟩ := feats_ne f h2
      simpa using List.ne_nil_of_mem hy
    simp only [packedView, not_empty h3, listView_rep h3, listToPacked, hc, Bool.false_eq_true, if_false]
    rw [List.flatMap_def]; rfl
  · obtain ⟨p, e, hp⟩ := paddedView_pre z h3.toPre
    refine ⟨p, _, e, ⟨h1, h2, rep_padded h3 hp⟩, ?_⟩
    have h4 := hp.2.2
    unfold feats at h4
    rwa [List.forall₂_map_right_iff] at h4

/-- A texture made from a list that fits the meshes, given to `Meshes`, is good. -/
theorem attach_list (z : α) (k : Kind) (f : V → α) {m : Batch V} (hm : Live m) :
    ∃ t, attach z m (ofList k (m.map (fun x => x.2.map f))) = .ok t ∧ Good k f ⟨m, t⟩ := by
  obtain ⟨t, e, h1, h2⟩ := attach_pre z f (pre_ofList k (feats_ne f hm)) hm
  exact ⟨t, e, h1, hm, h2⟩

/-- A texture made from a padded tensor whose width is that of the longest mesh, given to `Meshes` before its list view is asked for, is
good: the entries beyond the end of a mesh are left out. -/
theorem attach_padded (z : α) (k : Kind) (f : V → α) {m : Batch V} (hm : Live m) {p : Pad α} (hr : p.rank = k.rank)
    (hw : p.width = maxLen (m.map (fun x => x.2)))
    (hp : List.Forall₂ (fun row x => x.2.map f <+: row ∧ row.length = p.width) p.rows m) :
    ∃ t t', ofPadded k p = .ok t ∧ attach z m t = .ok t' ∧ Good k f ⟨m, t'⟩ := by
  have h1 : maxLen (m.map (fun x => x.2)) = maxLen (feats f m) := by simp [maxLen, feats, Function.comp_def]
  have hpre : Pre (⟨k, none, some p, p.rows.length, .list (List.replicate p.rows.length p.width), List.replicate p.rows.length true⟩ : Tex α)
      (feats f m) := by
    refine ⟨fun l hl => by simp at hl, fun q hq => ?_, .inr rfl, ?_, feats_ne f hm, fun hq => by simp at hq⟩
    · cases hq
      refine ⟨hr, hw.trans h1, ?_⟩
      unfold feats
      rw [List.forall₂_map_right_iff]
      exact hp
    · simp only [feats, List.length_map]; exact hp.length_eq
  obtain ⟨t', e, h2, h3⟩ := attach_pre z f hpre hm
  exact ⟨_, t', by simp only [ofPadded, hr, ne_eq, not_true_eq_false, if_false], e, h2, hm, h3⟩

/-- `Meshes` accepts a texture exactly when the number of meshes and the largest number of elements agree; the sizes of the individual meshes
are not compared. -/
theorem attach_accepts (z : α) (m : Batch V) {t : Tex α} {c : List (List α)} (h : Pre t c) :
    (∃ t', attach z m t = .ok t') ↔ m.length = c.length ∧ (m.map (fun x => x.2.length)).foldl max 0 = maxLen c := by
  obtain ⟨p, e, h1, h2, h3⟩ := paddedView_pre z h
  have h4 := h3.length_eq
  simp only [attach, e, withPadded_kind]
  have hk : (t.kind == Kind.atlas || p.rank == 1) = true := by
    rw [h1]; cases t.kind <;> simp [Kind.rank]
  by_cases hc : checkShapes t.kind p m.length ((m.map (fun x => x.2.length)).foldl max 0) = true
  · simp only [hc, if_true]
    simp only [checkShapes, hk, Bool.and_true, Bool.and_eq_true, beq_iff_eq] at hc
    exact ⟨fun _ => ⟨by rw [← hc.1, h4], by rw [← hc.2, h2]⟩, fun _ => ⟨_, rfl⟩⟩
  · simp only [hc, Bool.false_eq_true, if_false]
    refine ⟨fun ⟨_, h⟩ => by simp at h, fun ⟨h5, h6⟩ => absurd ?_ hc⟩
    simp only [checkShapes, hk, Bool.and_true, Bool.and_eq_true, beq_iff_eq]
    exact ⟨by rw [h4, h5], by rw [h2, h6]⟩

/-- So a texture whose sizes are those of the meshes in another order is accepted, and the packed features then belong to the wrong vertices:
the first vertex of the second mesh (packed position 1) gets the second feature of the first. -/
theorem mismatch_accepted :
    attach 0 [(true, ["a"]), (true, ["b", "c"])] (ofList .vertex [[1, 2], [3]]) =
      .ok ⟨.vertex, some [[1, 2], [3]], some ⟨1, 2, [[1, 2], [3, 0]]⟩, 2, .list [1, 2], [true, true]⟩ ∧
    (packedView (⟨.vertex, some [[1, 2], [3]], some ⟨1, 2, [[1, 2], [3, 0]]⟩, 2, .list [1, 2], [true, true]⟩ : Tex Nat)).map (fun r => r.1) =
      .ok (some [1, 2, 3]) := by decide +kernel

/-- Asking a padded texture for its list view before giving it to `Meshes` keeps the padding in that view for ever: with meshes of one and two
vertices the packed features have four rows instead of three. -/
theorem stale_list :
    let t : Tex Nat := ⟨.vertex, none, some ⟨1, 2, [[1, 0], [2, 3]]⟩, 2, .list [2, 2], [true, true]⟩
    let m : Batch String := [(true, ["a"]), (true, ["b", "c"])]
    ofPadded .vertex ⟨1, 2, [[1, 0], [2, 3]]⟩ = .ok t ∧
    (do let t' ← attach 0 m t; let r ← packedView t'; return r.1) = .ok (some [1, 2, 3]) ∧
    (do let (_, t') ← listView t; let t' ← attach 0 m t'; let r ← packedView t'; return r.1) = .ok (some [1, 0, 2, 3]) := by
  decide +kernel

/-- **Indexing with an int** leaves a bare number in the counts: until the texture is given to `Meshes`, it cannot be extended or indexed, and a
vertex texture cannot be cloned. -/
theorem int_item (z : α) {t : Tex α} {c : List (List α)} (h : Rep t c) {i : Int} (hi : -(c.length : Int) ≤ i ∧ i < c.length)
    (hc : c.getD (i % c.length).toNat [] ≠ []) :
    ∃ x t', getitem z (.int i) t = .ok (x, t') ∧ Pre x [c.getD (i % c.length).toNat []] ∧ x.kind = t.kind ∧
      (∃ n, x.num = .int n) ∧
      (∀ n, n ≠ 0 → extend z n x = .error .valueError) ∧
      (∀ ix, ∃ e, getitem z ix x = .error e) ∧
      (t.kind = .vertex → clone z x = .error .attributeError) := by
  have hs : (Index.int i).select c = .ok [c.getD (i % c.length).toNat []] := Meshes.select_ok c (.int i) _ ⟨hi, rfl⟩
  have hn : numItem (.int i) t.num = .ok (.int (c.getD (i % c.length).toNat []).length) := by
    rw [h.num]
    simp only [numItem, lift, select_map, hs]
    rfl
  have hne : [c.getD (i % c.length).toNat []] ≠ [] := by simp
  have hpre := pre_num (pre_ofList t.kind (c := [c.getD (i % c.length).toNat []]) ⟨_, List.mem_singleton.2 rfl, hc⟩)
    (.int (c.getD (i % c.length).toNat []).length)
  obtain ⟨p, e, hp⟩ := paddedView_pre z hpre
  refine ⟨{ ofList t.kind [c.getD (i % c.length).toNat []] with num := .int (c.getD (i % c.length).toNat []).length }, withList t c, ?_, hpre,
    rfl, ⟨_, rfl⟩, fun n hn0 => ?_, fun ix => ?_, fun hk => ?_⟩
  · simp only [getitem, listView_rep h, withList_num, withList_kind, lift, hs, hn, hne, and_false, if_false]
  · simp only [extend, hn0, if_false, e, withPadded_num]
  · simp only [getitem, listView, ofList, numItem]
    cases lift (ix.select [c.getD (i % c.length).toNat []]) with
    | error e => exact ⟨e, rfl⟩
    | ok l => exact ⟨_, rfl⟩
  · rw [hk] at e hp ⊢
    simp only [clone, e, ofPadded, withPadded_num, withPadded_kind, hp.1, ne_eq, not_true_eq_false, if_false]
    rfl

/-- **A batch without a valid mesh** (vertices but no faces, say): its texture cannot be indexed with an int, the counts being empty. -/
theorem dead_index (z : α) {m : Batch V} {t t' : Tex α} (hm : ¬ Live m) (h : attach z m t = .ok t') (i : Int) :
    ∃ e, getitem z (.int i) t' = .error e := by
  have hv : (validOf m).any id = false := by
    rw [List.any_eq_false]
    intro b hb
    obtain ⟨x, hx, rfl⟩ := List.mem_map.1 hb
    intro hc
    exact hm ⟨x, hx, by simpa using hc⟩
  unfold attach at h
  cases hp : paddedView z t with
  | error e => rw [hp] at h; simp at h
  | ok r =>
    obtain ⟨p, t1⟩ := r
    rw [hp] at h
    simp only [hv, Bool.false_eq_true, if_false] at h
    split at h
    · injection h with h
      subst h
      unfold getitem
      cases hl : listView _ with
      | error e => exact ⟨e, rfl⟩
      | ok r =>
        obtain ⟨l, t2⟩ := r
        have hnum : t2.num = .list [] := by
          unfold listView at hl
          split at hl
          · injection hl with hl; injection hl with _ hl; subst hl; rfl
          · split at hl
            · split at hl
              · injection hl with hl; injection hl with _ hl; subst hl; rfl
              · simp at hl
            · split at hl
              · split at hl
                · simp at hl
                · injection hl with hl; injection hl with _ hl; subst hl; rfl
              · simp at hl
        have hnum' : ∃ e, numItem (.int i) (.list []) = .error e := by
          refine ⟨.indexError, ?_⟩
          have : (Index.int i).select ([] : List Nat) = .error .indexError := Meshes.pick_err [] [i] (by simp)
          simp only [numItem, lift, this]; rfl
        obtain ⟨e, he⟩ := hnum'
        simp only [hnum, he]
        cases lift ((Index.int i).select l) with
        | error e => exact ⟨e, rfl⟩
        | ok l => exact ⟨_, rfl⟩
    · simp at h

/-- The list view of an atlas made from a padded tensor raises when no mesh is valid. -/
theorem atlas_list_empty {t : Tex α} (hk : t.kind = .atlas) (hl : t.list = none) (he : isempty t = true) :
    listView t = .error .attributeError := by
  simp only [listView, hl, he, hk, if_true]

/-- Joining a mesh that has vertices and no faces, with a padded vertex texture, to another mesh loses its features without an exception: the
features of the second mesh move to the vertices of the first. -/
theorem dead_join :
    ∃ t : Tex Nat, attach 0 [(false, ["a", "b"])] (⟨.vertex, none, some ⟨1, 2, [[1, 2]]⟩, 1, .list [2], [true]⟩ : Tex Nat) = .ok t ∧
    ∃ u : Tex Nat, attach 0 [(true, ["c", "d"])] (ofList .vertex [[3, 4]]) = .ok u ∧
    ∃ pool : List (Item String Nat), step 0 [⟨[(false, ["a", "b"])], t⟩, ⟨[(true, ["c", "d"])], u⟩] (.join 0 [1]) = .ok pool ∧
      (pool.getLastD ⟨[], u⟩).mesh = [(false, ["a", "b"]), (true, ["c", "d"])] ∧
      ((packedView (pool.getLastD ⟨[], u⟩).tex).map (fun r => r.1)) = .ok (some [3, 4]) :=
  ⟨⟨.vertex, none, some ⟨1, 2, [[1, 2]]⟩, 1, .list [], [false]⟩, by decide +kernel,
   ⟨.vertex, some [[3, 4]], some ⟨1, 2, [[3, 4]]⟩, 1, .list [2], [true]⟩, by decide +kernel,
   [⟨[(false, ["a", "b"])], ⟨.vertex, some [[]], some ⟨1, 2, [[1, 2]]⟩, 1, .list [], [false]⟩⟩,
    ⟨[(true, ["c", "d"])], ⟨.vertex, some [[3, 4]], some ⟨1, 2, [[3, 4]]⟩, 1, .list [2], [true]⟩⟩,
    ⟨[(false, ["a", "b"]), (true, ["c", "d"])], ⟨.vertex, some [[], [3, 4]], some ⟨1, 2, [[0, 0], [3, 4]]⟩, 2, .list [2, 2], [false, true]⟩⟩],
   by decide +kernel, by decide +kernel, by decide +kernel⟩

/-- An empty batch: `Meshes` accepts `TexturesAtlas([])` and rejects `TexturesVertex([])`; textures for meshes without elements are rejected
in either class. -/
theorem empty_batches (z : α) (k : Kind) (n : Nat) :
    attach z ([] : Batch V) (ofList .vertex []) = .error .valueError ∧
    (∃ t, attach z ([] : Batch V) (ofList .atlas []) = .ok t) ∧
    attach z (List.replicate (n + 1) ((true, []) : Bool × List V)) (ofList k (List.replicate (n + 1) [])) = .error .valueError := by
  refine ⟨rfl, ⟨_, rfl⟩, ?_⟩
  have h : listToPadded (List.replicate (n + 1) ([] : List α)) none z false = .error .valueError :=
    StructUtils.listToPadded_auto_reject _ z (fun y hy => (List.mem_replicate.1 hy).2)
  have he : isempty (ofList k (List.replicate (n + 1) ([] : List α))) = false := by
    simp [isempty, ofList]
  simp only [attach, paddedView, he, Bool.false_eq_true, if_false]
  simp only [ofList, h]
  rfl

/-! ### Examples -/

/-- Two meshes with coloured vertices: index, extend, join, make submeshes and a scene. -/
example :
    (do
      let t ← attach 0 [(true, [10, 11]), (true, [12])] (ofList .vertex [[1, 2], [3]])
      let pool ← run 0 [.get 0 (.int (-1)), .extend 1 2, .join 0 [2, 0], .sub 3 [[], [(true, [0])], [], [], [(true, [1]), (true, [1, 0])], []],
        .scene 4] [⟨[(true, [10, 11]), (true, [12])], t⟩]
      let r ← packedView (pool.getLastD ⟨[], t⟩).tex
      return ((pool.getLastD ⟨[], t⟩).mesh, r.1)) =
    (.ok ([(true, [12, 11, 11, 10])], some [3, 2, 2, 1]) : Except Err (Batch Nat × Option (List Nat))) := by decide +kernel

example : meshRun [.get 0 (.int (-1)), .extend 1 2, .join 0 [2, 0]] [[(true, [10, 11]), (true, [12])]] =
    some [[(true, [10, 11]), (true, [12])], [(true, [12])], [(true, [12]), (true, [12])],
      [(true, [10, 11]), (true, [12]), (true, [12]), (true, [12]), (true, [10, 11]), (true, [12])]] := by decide +kernel

end P3D.Textures
