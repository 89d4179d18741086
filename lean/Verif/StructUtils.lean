/-
Model of `pytorch3d/structures/utils.py`.

A tensor of shape `(M, ...)` is a `List α` of its `M` rows (`α` = the type of a row, i.e. all
trailing dimensions, which every caller in `structures/` keeps equal).  A padded tensor of shape
`(N, S, ...)` is a `List (List α)` with `N` elements.
Not modelled: dtype/device, ragged trailing dimensions (see `Padded2` below for two ragged dims).
-/
import Mathlib.Data.List.Basic

namespace P3D.StructUtils

/-- Python exceptions that the modelled functions can raise. -/
inductive Err
  | valueError
  | runtimeError
  | indexError
  | assertionError
  deriving DecidableEq, Repr

variable {α : Type*}

/-- `torch.cumsum` of a 1-D integer tensor (running totals, starting from `acc`). -/
def cumsumFrom (acc : Nat) : List Nat → List Nat
  | [] => []
  | x :: xs => (acc + x) :: cumsumFrom (acc + x) xs

/-- `torch.bucketize(v, boundaries, right=True)` on sorted boundaries: the number of boundaries
that are `≤ v` (torch documents `boundaries[i-1] <= v < boundaries[i]`). -/
def bucketizeRight (boundaries : List Nat) (v : Nat) : Nat :=
  boundaries.countP (fun b => decide (b ≤ v))

/-- The 4-tuple returned by `list_to_packed`. -/
structure Packed (α : Type*) where
  packed : List α
  numItems : List Nat
  firstIdx : List Nat
  toListIdx : List Nat
  deriving DecidableEq, Repr

/-- `pytorch3d/structures/utils.py:119-154` `list_to_packed`.
Line 138-139: empty list raises.  Line 144-145: `first_idx[0] = 0`,
`first_idx[1:] = cumsum(num_items[:-1])`.  Line 146-151: bucketize of `arange(total)` minus 1
(natural subtraction; the count is never 0 because `first_idx[0] = 0`). -/
def listToPacked (x : List (List α)) : Except Err (Packed α) :=
  if x.isEmpty then .error .valueError
  else
    let sizes := x.map List.length
    let total := sizes.sum
    let first := 0 :: cumsumFrom 0 sizes.dropLast
    .ok {
      packed := x.flatten
      numItems := sizes
      firstIdx := first
      toListIdx := (List.range total).map (fun r => bucketizeRight first r - 1) }

/-- `pytorch3d/structures/utils.py:157-170` `packed_to_list` with a list of sizes
(`torch.split` raises `RuntimeError` unless the sizes sum to the length). -/
def packedToList (x : List α) (split : List Nat) : Except Err (List (List α)) :=
  if split.sum = x.length then .ok (go x split) else .error .runtimeError
where
  go (x : List α) : List Nat → List (List α)
    | [] => []
    | n :: ns => x.take n :: go (x.drop n) ns

/-- Row assignment `x_padded[i, 0:len(y)] = y` (`utils.py:76-78`) into a fresh row of `S` copies
of the pad value.  Longer elements do not fit and torch raises, except that a length-1 element
broadcasts silently into a slice of size 0. -/
def padRow (S : Nat) (v : α) (y : List α) : Except Err (List α) :=
  if y.length ≤ S then .ok (y ++ List.replicate (S - y.length) v)
  else if y.length = 1 then .ok (List.replicate S v)
  else .error .runtimeError

/-- `pytorch3d/structures/utils.py:19-79` `list_to_padded` (only the first dimension ragged).
Lines 45-46: the `equisized` path is `torch.stack` which raises if sizes differ or the list is
empty.  Line 53: `max` of an empty list raises `ValueError`.  Lines 64-67: without `pad_size` the
target is the maximum over the non-empty elements, `ValueError` if there is none. -/
def listToPadded (x : List (List α)) (padSize : Option Nat) (v : α) (equisized : Bool) :
    Except Err (List (List α)) :=
  if equisized then
    match x with
    | [] => .error .runtimeError
    | y :: ys => if ys.all (fun z => z.length == y.length) then .ok x else .error .runtimeError
  else if x.isEmpty then .error .valueError
  else
    match padSize with
    | some S => x.mapM (padRow S v)
    | none =>
      match (x.filter (fun y => !y.isEmpty)).map List.length with
      | [] => .error .valueError
      | l :: ls => x.mapM (padRow (ls.foldl max l) v)

/-- `pytorch3d/structures/utils.py:82-116` `padded_to_list` with integer split sizes
(slicing past the end is silently clamped by Python slices). -/
def paddedToList (x : List (List α)) (split : Option (List Nat)) : Except Err (List (List α)) :=
  match split with
  | none => .ok x
  | some s =>
    if x.length ≠ s.length then .error .valueError
    else .ok (List.zipWith (fun row n => row.take n) x s)

/-- `utils.py:232-240`: the gather indices `arange(v) + i * M` for each `(i, v)`. -/
def packedIdx (M : Nat) (split : List Nat) : List Nat :=
  (split.zipIdx.map (fun vi => (List.range vi.1).map (fun j => j + vi.2 * M))).flatten

/-- Tensor indexing `x[idx]` along the first dimension, raising on an out-of-range index
(`utils.py:242`). -/
def gather (l : List α) (idx : List Nat) : Except Err (List α) :=
  idx.mapM (fun i =>
    match l[i]? with
    | some r => .ok r
    | none => .error .indexError)

/-- `pytorch3d/structures/utils.py:173-242` `padded_to_packed`.  `M` is the second dimension of
the padded tensor.  A row is a list of scalars so that `pad_value` filtering (lines 213-216: keep
rows with *any* entry different from the pad value) is visible.  The final gather (line 242)
raises `IndexError` on an out-of-range index. -/
def paddedToPacked {β : Type*} [DecidableEq β] (M : Nat) (x : List (List (List β)))
    (split : Option (List Nat)) (padValue : Option β) : Except Err (List (List β)) :=
  match split, padValue with
  | some _, some _ => .error .valueError
  | none, none => .ok x.flatten
  | none, some v => .ok (x.flatten.filter (fun row => row.any (fun e => e ≠ v)))
  | some s, none =>
    if x.length ≠ s.length then .error .valueError
    else
      gather x.flatten (packedIdx M s)

end P3D.StructUtils
