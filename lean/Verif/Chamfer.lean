/-
Model of `chamfer_distance`, `pytorch3d/loss/chamfer.py` 17-276 (whole file), on top of the model of
`knn_points` / `knn_gather` with K = 1 (`Verif/Knn.lean`, CPU kernel).

A batch is a padded batch: every element has `P` rows, of which the first `len` are points.
Numbers are an ordered field.  `sim` stands for `F.cosine_similarity(.., eps=1e-6)` of two normals
and is a parameter; normals are an arbitrary type with a zero.  Not modelled: dtypes and devices,
shape checks that depend on the last dimension, NaN/inf (so multiplying by 0.0 gives 0).
-/
import Verif.Knn

namespace P3D.Chamfer
open P3D.Knn

variable {R U : Type*} [Field R] [LinearOrder R]

inductive Err | value | assertion | emptyReduction | index
  deriving DecidableEq, Repr

/-- One element of a padded batch. -/
structure Elt (R U : Type*) where
  pts : List (List R)
  len : Nat
  nrm : List U

/-- Arguments `x`, `x_lengths`, `x_normals`; `fromCloud` if `x` is a `Pointclouds` object, whose
normals are taken from the object (`_handle_pointcloud_input`, lines 38-74). -/
structure Batch (R U : Type*) where
  P : Nat
  elts : List (Elt R U)
  hasN : Bool
  fromCloud : Bool

inductive PointRed | mean | sum | max deriving DecidableEq, Repr
inductive BatchRed | mean | sum deriving DecidableEq, Repr

/-- The keyword arguments. -/
structure Cfg where
  batchRed : Option BatchRed := some .mean
  pointRed : Option PointRed := some .mean
  norm : Nat := 2
  single : Bool := false
  absCos : Bool := true

/-- Tensors of the shapes that occur: scalars, (N,), (N, P) or (N, N), and pairs. -/
inductive T (R : Type*)
  | t0 (x : R)
  | t1 (l : List R)
  | t2 (l : List (List R))
  | pair (a b : List (List R))
  deriving DecidableEq, Repr

/-- `cham[x_mask] = 0.0` if any length differs from P, lines 95-98, 117-118, 131-132. -/
def maskPad (hetero : Bool) (len : Nat) (l : List R) : List R :=
  if hetero then l.zipIdx.map fun e => if e.2 ≥ len then 0 else e.1 else l

/-- `cham *= weights.view(N, 1)`, lines 120-121, 134-135. -/
def weigh (w : Option R) (l : List R) : List R :=
  match w with
  | none => l
  | some w => l.map (· * w)

/-- Lines 114-135 for one batch element: distances and, if both have normals, normal terms. -/
def dirElt (zero : U) (sim : U → U → R) (cfg : Cfg) (hetero shortY useN : Bool) (x y : Elt R U)
    (w : Option R) : Except Err (List R × List R) := do
  match knnCloudCpu cfg.norm 1 x.pts y.pts x.len y.len with
  | none => .error .index
  | some rows =>
    let cham := weigh w (maskPad hetero x.len (rows.map fun r => (r.headD (0, 0)).1))
    if useN then
      match rows.mapM fun r => gatherRow zero shortY y.len y.nrm (r.map Prod.snd) with
      | none => .error .index
      | some near =>
        let cn := List.zipWith (fun n (m : List U) =>
          1 - (if cfg.absCos then |sim n (m.headD zero)| else sim n (m.headD zero))) x.nrm near
        .ok (cham, weigh w (maskPad hetero x.len cn))
    else .ok (cham, [])

/-- Lines 137-150 for one batch element: the reduction over points (`max` of an empty row raises). -/
def redElt (pr : PointRed) (len : Nat) (l : List R) : Except Err R :=
  match pr with
  | .max => match l with
    | [] => .error .emptyReduction
    | a :: t => .ok (t.foldl max a)
  | .sum => .ok l.sum
  | .mean => .ok (l.sum / (Nat.max len 1 : Nat))

/-- Weight of each batch element, if there are weights (lines 119-120, 134-135). -/
def optWeights (N : Nat) (w : Option (List R)) : List (Option R) :=
  match w with
  | none => List.replicate N none
  | some ws => ws.map some

/-- Result of one direction: (N, P) or (N,) or, for all-zero weights, (N, N). -/
abbrev Dir (R : Type*) := T R × Option (T R)

/-- `_chamfer_distance_single_direction`, lines 77-154. -/
def direction (zero : U) (sim : U → U → R) (cfg : Cfg) (x y : Batch R U) (w : Option (List R)) :
    Except Err (Dir R) := do
  let useN := x.hasN && y.hasN
  let N := x.elts.length
  let hetero := x.elts.any fun e => decide (e.len ≠ x.P)
  if y.elts.length ≠ N then .error .value else
  match w with
  | some ws =>
    if ws.length ≠ N then .error .value else
    if ¬ ws.all (fun v => decide (v ≥ 0)) then .error .value else
    if ws.sum = 0 then
      let z := List.replicate N (List.replicate N 0)
      .ok (.t2 z, some (.t2 z))
    else go useN hetero N
  | none => go useN hetero N
where
  go (useN hetero : Bool) (N : Nat) : Except Err (Dir R) := do
    let shortY := y.elts.any fun e => decide (e.len < 1)
    let rows ← ((x.elts.zip y.elts).zip (optWeights N w)).mapM fun a =>
      dirElt zero sim cfg hetero shortY useN a.1.1 a.1.2 a.2
    match cfg.pointRed with
    | none => .ok (.t2 (rows.map Prod.fst), if useN then some (.t2 (rows.map Prod.snd)) else none)
    | some pr =>
      if pr = .max && useN then .error .assertion else
      let d ← (rows.zip x.elts).mapM fun a => redElt pr a.2.len a.1.1
      if useN then
        let n ← (rows.zip x.elts).mapM fun a => redElt pr a.2.len a.1.2
        .ok (.t1 d, some (.t1 n))
      else .ok (.t1 d, none)

/-- Elementwise combination of two tensors of the same shape (lines 254-258). -/
def T.zip2 (f : R → R → R) : T R → T R → Except Err (T R)
  | .t1 a, .t1 b => .ok (.t1 (List.zipWith f a b))
  | .t2 a, .t2 b => .ok (.t2 (List.zipWith (List.zipWith f) a b))
  | _, _ => .error .value

/-- `(cham_x, cham_y)`, lines 264-268. -/
def T.mkPair : T R → T R → Except Err (T R)
  | .t2 a, .t2 b => .ok (.pair a b)
  | _, _ => .error .value

/-- `_apply_batch_reduction`, lines 157-179: sum of all entries, divided for `"mean"`. -/
def batchReduce (br : Option BatchRed) (w : Option (List R)) (N : Nat) (t : T R) : T R :=
  match br with
  | none => t
  | some br =>
    let s : R := match t with
      | .t0 x => x
      | .t1 l => l.sum
      | .t2 l => (l.map List.sum).sum
      | .pair a b => (a.map List.sum).sum + (b.map List.sum).sum
    match br with
    | .sum => .t0 s
    | .mean => .t0 (s / match w with
      | none => ((Nat.max N 1 : Nat) : R)
      | some ws => if ws.sum = 0 then 1 else ws.sum)

/-- Tensor inputs: every length at most P (lines 61-62). -/
def Batch.badLengths (b : Batch R U) : Bool :=
  !b.fromCloud && b.elts.any fun e => decide (e.len > b.P)

/-- `chamfer_distance`, lines 182-276. -/
def chamfer (zero : U) (sim : U → U → R) (cfg : Cfg) (x y : Batch R U) (w : Option (List R)) :
    Except Err (T R × Option (T R)) := do
  if cfg.pointRed.isNone && cfg.batchRed.isSome then .error .value else
  if ¬ (cfg.norm = 1 ∨ cfg.norm = 2) then .error .value else
  if cfg.pointRed = some .max && ((x.hasN && !x.fromCloud) || (y.hasN && !y.fromCloud)) then
    .error .value else
  if x.badLengths || y.badLengths then .error .value else
  let cx ← direction zero sim cfg x y w
  let (loss, nrm) ← if cfg.single then pure cx else do
    let cy ← direction zero sim cfg y x w
    match cfg.pointRed with
    | some .max => do
      let l ← cx.1.zip2 max cy.1
      pure (l, none)
    | some _ => do
      let l ← cx.1.zip2 (· + ·) cy.1
      match cx.2, cy.2 with
      | some a, some b => do
        let n ← a.zip2 (· + ·) b
        pure (l, some n)
      | _, _ => pure (l, none)
    | none => do
      let l ← cx.1.mkPair cy.1
      match cx.2, cy.2 with
      | some a, some b => do
        let n ← a.mkPair b
        pure (l, some n)
      | _, _ => pure (l, none)
  return (batchReduce cfg.batchRed w x.elts.length loss,
    nrm.map (batchReduce cfg.batchRed w x.elts.length))

end P3D.Chamfer
