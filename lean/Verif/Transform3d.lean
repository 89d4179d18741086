/-
`transforms/transform3d.py`.  A batch of matrices is a list; a `Transform3d` object is a tree, because
`compose` keeps the other transforms as objects.  Numbers are elements of a field.
-/
import Verif.So3
import Mathlib.LinearAlgebra.Matrix.NonsingularInverse

namespace P3D.T3d

inductive Err | value | index | singular | type deriving DecidableEq, Repr

/-! ### Broadcasting of batches -/

/-- Resulting batch length of `_broadcast_bmm`, lines 854-879. -/
def blen (n m : Nat) : Option Nat :=
  if n = m then some n else if n = 1 then some m else if m = 1 then some n else none

/-- Element `i` of a batch that may have been expanded from length 1 (`d` is never used). -/
def pick {α : Type*} (d : α) (a : List α) (i : Nat) : α := a.getD (if a.length = 1 then 0 else i) d

/-- `_broadcast_bmm`, lines 854-879, for an arbitrary operation on elements; `none` is the ValueError. -/
def bcast {α β γ : Type*} (da : α) (db : β) (f : α → β → γ) (a : List α) (b : List β) : Option (List γ) :=
  (blen a.length b.length).map fun n => (List.range n).map fun i => f (pick da a i) (pick db b i)

/-! ### Objects -/

inductive DType | f32 | f64 deriving DecidableEq, Repr

/-- The class of an object. -/
inductive Kind | base | translate | scale | rotate | rotateAxisAngle deriving DecidableEq, Repr

/-- A `Transform3d` object: class, `dtype`, `_matrix` and `_transforms`. -/
inductive T3 (K : Type*) where
  | mk (kind : Kind) (dtype : DType) (matrix : List (M4 K)) (transforms : List (T3 K))

variable {K : Type*} [Field K]

/-- `_broadcast_bmm` of two batches of matrices. -/
def bmm (a b : List (M4 K)) : Option (List (M4 K)) := bcast 1 1 (· * ·) a b

mutual
/-- `get_matrix`, lines 223-249; `none` is the ValueError of `_broadcast_bmm`. -/
def getMatrix : T3 K → Option (List (M4 K))
  | .mk _ _ m ts => composeAll m ts

/-- The loop of lines 246-248. -/
def composeAll (acc : List (M4 K)) : List (T3 K) → Option (List (M4 K))
  | [] => some acc
  | t :: ts => (getMatrix t).bind fun o => (bmm acc o).bind fun r => composeAll r ts
end

/-- `compose`, lines 203-221. -/
def compose : T3 K → List (T3 K) → T3 K
  | .mk _ d m ts, others => .mk .base d m (ts ++ others)

open Classical in
/-- `_get_matrix_inverse` on one matrix: lines 294-298 (base: `torch.inverse` raises on singular
matrices), 558-565 (Translate), 621-628 (Scale), 686-690 (Rotate and RotateAxisAngle). -/
noncomputable def inverseMat : Kind → M4 K → Except Err (M4 K)
  | .base, m => if m.det = 0 then .error .singular else .ok m⁻¹
  | .translate, m => .ok (Matrix.of fun i j => m i j * (if i = 3 ∧ j ≠ 3 then -1 else 1))
  | .scale, m => .ok (Matrix.diagonal fun i => (m i i)⁻¹)
  | .rotate, m => .ok m.transpose
  | .rotateAxisAngle, m => .ok m.transpose

mutual
/-- `inverse(invert_composed=False)`, lines 321-347. -/
noncomputable def inverse : T3 K → Except Err (T3 K)
  | .mk k d m ts => do
    let im ← m.mapM (inverseMat k)
    let its ← inverses ts
    if ts.isEmpty then .ok (.mk .base d im [])
    else .ok (.mk .base d [1] (its.reverse ++ [.mk .base d im []]))

/-- The inverses of line 338 (in the original order). -/
noncomputable def inverses : List (T3 K) → Except Err (List (T3 K))
  | [] => .ok []
  | t :: ts => do
    let i ← inverse t
    let is ← inverses ts
    .ok (i :: is)
end

/-- `inverse(invert_composed=True)`, lines 323-324. -/
noncomputable def inverseComposed : T3 K → Except Err (T3 K)
  | .mk k d m ts =>
    match getMatrix (.mk k d m ts) with
    | none => .error .value
    | some ms => do
      let im ← ms.mapM (inverseMat .base)
      .ok (.mk .base d im [])

/-- `stack`, lines 349-364. -/
def stack (t : T3 K) (others : List (T3 K)) : Option (T3 K) :=
  match t with
  | .mk k d m ts => ((.mk k d m ts :: others).mapM getMatrix).map fun l => .mk .base d l.flatten []

/-! ### Constructors -/

/-- Argument of `Translate` or `Scale`. -/
inductive Arg (K : Type*)
  /-- `None`. -/
  | none
  /-- Python or torch scalar. -/
  | scalar (c : K)
  /-- 1D tensor. -/
  | vec (l : List K)
  /-- 2D tensor, with its width. -/
  | mat (width : Nat) (rows : List (List K))

/-- `_handle_coord`, lines 749-765 (a tensor of `None` cannot be made; a 2D tensor is passed through
and its length is the number of rows: `expand` then fails). -/
def handleCoord : Arg K → Except Err (List K)
  | .none => .error .type
  | .scalar c => .ok [c]
  | .vec l => .ok l
  | .mat _ _ => .error .type

/-- `_handle_input`, lines 768-831. -/
def handleInput (x y z : Arg K) (allowSingleton : Bool) : Except Err (List (V3 K)) :=
  let rest : Except Err (List (V3 K)) :=
    let single : Bool := allowSingleton && (match y, z with | .none, .none => true | _, _ => false)
    do
      let a ← handleCoord x
      let b ← handleCoord (if single then x else y)
      let c ← handleCoord (if single then x else z)
      let N := max a.length (max b.length c.length)
      if (a.length = 1 ∨ a.length = N) ∧ (b.length = 1 ∨ b.length = N) ∧ (c.length = 1 ∨ c.length = N) then
        .ok ((List.range N).map fun i => ⟨pick 0 a i, pick 0 b i, pick 0 c i⟩)
      else .error .value
  match x with
  | .mat w rows =>
    if w ≠ 3 then .error .value
    else match y, z with
      | .none, .none => .ok (rows.map fun r => ⟨r.getD 0 0, r.getD 1 0, r.getD 2 0⟩)
      | _, _ => .error .value
  | _ => rest

/-- Translation matrix, lines 553-556. -/
def translateMat (v : V3 K) : M4 K := M4.affine 1 v

/-- Scaling matrix, lines 614-619. -/
def scaleMat (v : V3 K) : M4 K := M4.affine ⟨v.x, 0, 0, 0, v.y, 0, 0, 0, v.z⟩ 0

/-- Rotation matrix, lines 680-684. -/
def rotateMat (r : M3 K) : M4 K := M4.affine r 0

/-- `Translate`, lines 527-556. -/
def translate (d : DType) (x y z : Arg K) : Except Err (T3 K) := do
  let l ← handleInput x y z false
  .ok (.mk .translate d (l.map translateMat) [])

/-- `Scale`, lines 584-619. -/
def scale (d : DType) (x y z : Arg K) : Except Err (T3 K) := do
  let l ← handleInput x y z true
  .ok (.mk .scale d (l.map scaleMat) [])

/-- `Rotate`, lines 651-684 (the rotation check only warns). -/
def rotate (d : DType) (rs : List (M3 K)) : T3 K := .mk .rotate d (rs.map rotateMat) []

/-- `RotateAxisAngle`, lines 709-746, for a valid axis letter. -/
noncomputable def rotateAxisAngle (d : DType) (axis : Rot.Axis) (degrees : Bool) (angles : List ℝ) : T3 ℝ :=
  .mk .rotateAxisAngle d (angles.map fun a =>
    rotateMat (Rot.axisRot axis (if degrees then a / 180 * Real.pi else a)).transpose) []

/-! ### Indexing -/

/-- One element by a possibly negative integer. -/
def selectOne {α : Type*} (l : List α) (i : Int) : Except Err α :=
  if i < -(l.length : Int) then .error .index
  else match l[(if i < 0 then i + l.length else i).toNat]? with
    | some x => .ok x
    | none => .error .index

/-- Selecting elements by a list of integers. -/
def select {α : Type*} (l : List α) (idx : List Int) : Except Err (List α) := idx.mapM (selectOne l)

/-- `__getitem__` of the five classes: lines 187-201, 567-581, 630-648, 692-706.  Translate, Scale and
Rotate call their own constructor without `dtype`, so the result has the default `float32`;
RotateAxisAngle passes a 3D tensor as the angle, which `_handle_angle_input` rejects. -/
def getitem (t : T3 K) (idx : List Int) : Except Err (T3 K) :=
  match getMatrix t with
  | none => .error .value
  | some ms => do
    let s ← select ms idx
    match t with
    | .mk .base d _ _ => .ok (.mk .base d s [])
    | .mk .translate _ _ _ => .ok (.mk .translate .f32 (s.map fun m => translateMat (M4.transl m)) [])
    | .mk .scale _ _ _ => .ok (.mk .scale .f32 (s.map fun m => scaleMat ⟨m 0 0, m 1 1, m 2 2⟩) [])
    | .mk .rotate _ _ _ => .ok (.mk .rotate .f32 (s.map fun m => rotateMat (M4.linear m)) [])
    | .mk .rotateAxisAngle _ _ _ => .error .value

/-! ### Points and normals -/

/-- A tensor of points: `(P, 3)` or `(N, P, 3)`. -/
inductive Pts (K : Type*)
  | single (l : List (V3 K))
  | batch (l : List (List (V3 K)))
  deriving DecidableEq

def Pts.toBatch {K : Type*} : Pts K → List (List (V3 K))
  | .single l => [l]
  | .batch l => l

/-- The homogeneous row `[p, 1]`. -/
def hrow (p : V3 K) : Fin 4 → K := ![p.x, p.y, p.z, 1]

variable [LinearOrder K]

/-- `denom.sign() + (denom == 0)` times `clamp(denom.abs(), eps)`, lines 399-401. -/
def clampDenom (eps : Option K) (w : K) : K :=
  match eps with
  | none => w
  | some e => (if w < 0 then -1 else 1) * max |w| e

/-- One point, lines 392-402.  Division by zero gives inf or NaN in the code. -/
def transformPoint (eps : Option K) (p : V3 K) (m : M4 K) : V3 K :=
  let h := Matrix.vecMul (hrow p) m
  let w := clampDenom eps (h 3)
  ⟨h 0 / w, h 1 / w, h 2 / w⟩

/-- Result shape, lines 404-407 and 436-439. -/
def outShape (pts : Pts K) (out : List (List (V3 K))) : Pts K :=
  match pts, out with
  | .single _, [l] => .single l
  | _, o => .batch o

/-- `transform_points`, lines 366-409. -/
def transformPoints (t : T3 K) (eps : Option K) (pts : Pts K) : Except Err (Pts K) :=
  match getMatrix t with
  | none => .error .value
  | some ms =>
    match bcast [] 1 (fun ps m => ps.map fun p => transformPoint eps p m) pts.toBatch ms with
    | none => .error .value
    | some out => .ok (outShape pts out)

/-- `mat.transpose(1, 2).inverse()` of the 3x3 block, lines 428-429. -/
def normalMat (m : M4 K) : Except Err (M3 K) :=
  let a := (M4.linear m).transpose
  if a.det = 0 then .error .singular else .ok (a.det⁻¹ • a.adj)

/-- `transform_normals`, lines 411-441. -/
def transformNormals (t : T3 K) (nrm : Pts K) : Except Err (Pts K) :=
  match getMatrix t with
  | none => .error .value
  | some ms => do
    let ns ← ms.mapM normalMat
    match bcast [] 1 (fun ps m => ps.map fun p => M3.vecMul p m) nrm.toBatch ns with
    | none => .error .value
    | some out => .ok (outShape nrm out)

end P3D.T3d
