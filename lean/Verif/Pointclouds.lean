/-
Model of the `Pointclouds` class (`pytorch3d/structures/pointclouds.py`) as a state record with lazily
filled caches.  `P`, `Q`, `F` are the types of one point, one normal and one feature row.

Simplifications (also in DESIGN.md):
* devices and dtypes are not modelled; the number of channels is fixed by the type `F` (so the checks
  on `shape[2]` are not modelled);
* an entry of an auxiliary list that is `None` or has the wrong number of dimensions is `none`;
  for such an entry at a non-empty cloud the code raises `ValueError` or `AttributeError`, both given
  here as `valueError`;
* values only: aliasing between tensors of different objects is not modelled.
-/
import Verif.Meshes

namespace P3D.Clouds

open P3D.StructUtils
open P3D.Meshes (allSame maxNat overwritePadded Offset Index)

/-- The three cached forms of the normals or of the features (`pointclouds.py:160-182`). -/
structure Aux (Q : Type) where
  list : Option (List (List Q))
  padded : Option (List (List Q))
  packed : Option (List Q)
  deriving DecidableEq, Repr

/-- No auxiliary data. -/
def Aux.empty {Q : Type} : Aux Q := ⟨none, none, none⟩

/-- The attributes of a `Pointclouds` object (`pointclouds.py:146-185`).  `cloudIdx` holds
`_packed_to_cloud_idx` and `_cloud_to_packed_first_idx`, always set together. -/
structure State (P Q F : Type) where
  N : Nat
  maxP : Nat
  valid : List Bool
  equisized : Bool
  num : List Nat
  ptsList : Option (List (List P))
  ptsPadded : Option (List (List P))
  ptsPacked : Option (List P)
  cloudIdx : Option (List Nat × List Nat)
  padToPacked : Option (List Nat)
  normals : Aux Q
  features : Aux F
  deriving DecidableEq, Repr

/-- What can be passed as `normals=` / `features=`. -/
inductive AuxIn (Q : Type) where
  | none
  | list (l : List (Option (List Q)))
  | padded (width : Nat) (t : List (List Q))

/-- What can be passed as `points=`; `width` is `points.shape[1]`. -/
inductive PtsIn (P : Type) where
  | list (l : List (List P))
  | padded (width : Nat) (t : List (List P))

/-- The operations on points that the class uses, and the rows of zeros used for padding. -/
structure Ops (P Q F K : Type) where
  zero : P
  zeroN : Q
  zeroF : F
  add : P → P → P
  smul : K → P → P

variable {P Q F K : Type}

/-- One iteration of the checks of `_parse_auxiliary_input_list`, `pointclouds.py:323-344`:
`p` points in the cloud, entry `d`; the value tells whether the entry is usable. -/
def checkEntry (p : Nat) (d : Option (List Q)) : Except Err Bool :=
  match d with
  | some r => if p ≠ r.length then .error .valueError else .ok true
  | none => if 0 < p then .error .valueError else .ok false

/-- `pointclouds.py:298-364` `_parse_auxiliary_input_list`. -/
def parseAuxList (N : Nat) (num : List Nat) (l : List (Option (List Q))) : Except Err (Aux Q) :=
  if l.length ≠ N then .error .valueError
  else do
    let ok ← (List.zip num l).mapM (fun pd => checkEntry pd.1 pd.2)
    if ok.any id then .ok ⟨some (l.map (fun d => d.getD [])), none, none⟩
    else .ok Aux.empty

/-- `pointclouds.py:248-296` `_parse_auxiliary_input`. -/
def parseAux (N maxP : Nat) (num : List Nat) (x : AuxIn Q) : Except Err (Aux Q) :=
  match x with
  | .none => .ok Aux.empty
  | .list l => if N = 0 then .ok Aux.empty else parseAuxList N num l
  | .padded w t =>
    if N = 0 then .ok Aux.empty
    else if N ≠ t.length then .error .valueError
    else if maxP ≠ w then .error .valueError
    else .ok ⟨none, some t, none⟩

/-- The part of the constructor that reads the points, `pointclouds.py:188-233`. -/
def parsePts (pts : PtsIn P) : State P Q F :=
  match pts with
  | .list l =>
    { N := l.length
      maxP := maxNat (l.map List.length)
      valid := l.map (fun p => decide (0 < p.length))
      equisized := allSame (l.map List.length)
      num := l.map List.length
      ptsList := some l
      ptsPadded := none, ptsPacked := none, cloudIdx := none, padToPacked := none
      normals := Aux.empty, features := Aux.empty }
  | .padded w t =>
    { N := t.length
      maxP := w
      valid := List.replicate t.length true
      equisized := true
      num := List.replicate t.length w
      ptsList := none
      ptsPadded := some t, ptsPacked := none, cloudIdx := none, padToPacked := none
      normals := Aux.empty, features := Aux.empty }

/-- Constructor, `pointclouds.py:117-246`. -/
def mk (pts : PtsIn P) (normals : AuxIn Q) (features : AuxIn F) : Except Err (State P Q F) := do
  let s : State P Q F := parsePts pts
  let n ← parseAux s.N s.maxP s.num normals
  let f ← parseAux s.N s.maxP s.num features
  .ok { s with normals := n, features := f }

/-- `pointclouds.py:424-432` `isempty`. -/
def isEmptyBatch (s : State P Q F) : Bool := s.N == 0 || s.valid.all (fun b => !b)

/-- `pointclouds.py:434-451` `points_list` (row `i` of the padded tensor cut to `num[i]`, for the
`N` rows). -/
def getPtsList (s : State P Q F) : Except Err (List (List P) × State P Q F) :=
  match s.ptsList with
  | some l => .ok (l, s)
  | none =>
    match s.ptsPadded with
    | none => .error .assertionError
    | some p => do
      let l ← paddedToList p (some s.num)
      .ok (l, { s with ptsList := some l })

/-- `pointclouds.py:453-485` `normals_list` / `features_list`. -/
def Aux.getList (num : List Nat) (x : Aux Q) : Except Err (Option (List (List Q)) × Aux Q) :=
  match x.list with
  | some l => .ok (some l, x)
  | none =>
    match x.padded with
    | none => .ok (none, x)
    | some p => do
      let l ← paddedToList p (some num)
      .ok (some l, { x with list := some l })

/-- `pointclouds.py:453-468` `normals_list`. -/
def getNormalsList (s : State P Q F) : Except Err (Option (List (List Q)) × State P Q F) := do
  let (l, x) ← s.normals.getList s.num
  .ok (l, { s with normals := x })

/-- `pointclouds.py:470-485` `features_list`. -/
def getFeaturesList (s : State P Q F) : Except Err (Option (List (List F)) × State P Q F) := do
  let (l, x) ← s.features.getList s.num
  .ok (l, { s with features := x })

/-- `list_to_padded` of an optional list, `pointclouds.py:636-652`. -/
def padOpt (maxP : Nat) (eq : Bool) (zero : Q) (l : Option (List (List Q))) :
    Except Err (Option (List (List Q))) :=
  match l with
  | none => .ok none
  | some l => (listToPadded l (some maxP) zero eq).map some

/-- `pointclouds.py:616-652` `_compute_padded`.  The two auxiliary padded tensors are cleared
first (`:626`), before `normals_list()` / `features_list()` are asked for. -/
def computePadded (ops : Ops P Q F K) (s : State P Q F) : Except Err (State P Q F) :=
  if s.ptsPadded.isSome then .ok s
  else
    let s := { s with normals := { s.normals with padded := none }
                      features := { s.features with padded := none } }
    if isEmptyBatch s then .ok { s with ptsPadded := some (List.replicate s.N []) }
    else do
      let (pl, s) ← getPtsList s
      let pp ← listToPadded pl (some s.maxP) ops.zero s.equisized
      let (nl, s) ← getNormalsList s
      let np ← padOpt s.maxP s.equisized ops.zeroN nl
      let (fl, s) ← getFeaturesList s
      let fp ← padOpt s.maxP s.equisized ops.zeroF fl
      .ok { s with ptsPadded := some pp
                   normals := { s.normals with padded := np }
                   features := { s.features with padded := fp } }

/-- Concatenation of an optional list (`list_to_packed(...)[0]`), `pointclouds.py:705-712`. -/
def packOpt (l : Option (List (List Q))) : Except Err (Option (List Q)) :=
  match l with
  | none => .ok none
  | some l => (listToPacked l).map (fun p => some p.packed)

/-- `pointclouds.py:655-712` `_compute_packed`. -/
def computePacked (s : State P Q F) : Except Err (State P Q F) :=
  if s.ptsPacked.isSome && s.cloudIdx.isSome then .ok s
  else do
    let (pl, s) ← getPtsList s
    let (nl, s) ← getNormalsList s
    let (fl, s) ← getFeaturesList s
    if isEmptyBatch s then
      .ok { s with ptsPacked := some [], cloudIdx := some ([], [])
                   normals := { s.normals with packed := none }
                   features := { s.features with packed := none } }
    else
      let pk ← listToPacked pl
      if s.num ≠ pk.numItems then .error .valueError
      else
        let np ← packOpt nl
        let fp ← packOpt fl
        .ok { s with ptsPacked := some pk.packed
                     cloudIdx := some (pk.toListIdx, pk.firstIdx)
                     normals := { s.normals with packed := np }
                     features := { s.features with packed := fp } }

/-- The packed accessors, `pointclouds.py:487-541`: points, normals, features, cloud index of each
point, index of the first point of each cloud. -/
structure PackedView (P Q F : Type) where
  pts : Option (List P)
  normals : Option (List Q)
  features : Option (List F)
  cloudIdx : Option (List Nat × List Nat)
  deriving DecidableEq, Repr

/-- `points_packed`, `normals_packed`, `features_packed`, `packed_to_cloud_idx`,
`cloud_to_packed_first_idx` (`pointclouds.py:487-541`). -/
def getPacked (s : State P Q F) : Except Err (PackedView P Q F × State P Q F) := do
  let s ← computePacked s
  .ok (⟨s.ptsPacked, s.normals.packed, s.features.packed, s.cloudIdx⟩, s)

/-- The padded accessors: points, normals, features. -/
structure PaddedView (P Q F : Type) where
  pts : Option (List (List P))
  normals : Option (List (List Q))
  features : Option (List (List F))
  deriving DecidableEq, Repr

/-- `points_padded`, `normals_padded`, `features_padded` (`pointclouds.py:554-585`). -/
def getPadded (ops : Ops P Q F K) (s : State P Q F) :
    Except Err (PaddedView P Q F × State P Q F) := do
  let s ← computePadded ops s
  .ok (⟨s.ptsPadded, s.normals.padded, s.features.padded⟩, s)

/-- `pointclouds.py:587-614` `padded_to_packed_idx`. -/
def getPadToPacked (s : State P Q F) : List Nat × State P Q F :=
  match s.padToPacked with
  | some l => (l, s)
  | none =>
    let l := packedIdx s.maxP s.num
    (l, { s with padToPacked := some l })

/-- An auxiliary input made of a list that the class itself produced. -/
def auxOfList (l : Option (List (List Q))) : AuxIn Q :=
  match l with
  | none => .none
  | some l => .list (l.map some)

/-- An auxiliary input made of a padded tensor of the class. -/
def auxOfPadded (w : Nat) (t : Option (List (List Q))) : AuxIn Q :=
  match t with
  | none => .none
  | some t => .padded w t

/-- `for k in self._INTERNAL_TENSORS: if torch.is_tensor(v): setattr(other, k, v.clone())`
(`pointclouds.py:743-746`) for the auxiliary tensors. -/
def Aux.copyTensors (self other : Aux Q) : Aux Q :=
  { other with
    padded := self.padded <|> other.padded
    packed := self.packed <|> other.packed }

/-- The same copy for all internal tensors (`equisized` is not a tensor). -/
def copyTensors (self other : State P Q F) : State P Q F :=
  { other with
    ptsPacked := self.ptsPacked <|> other.ptsPacked
    ptsPadded := self.ptsPadded <|> other.ptsPadded
    cloudIdx := self.cloudIdx <|> other.cloudIdx
    num := self.num
    padToPacked := self.padToPacked <|> other.padToPacked
    valid := self.valid
    normals := self.normals.copyTensors other.normals
    features := self.features.copyTensors other.features }

/-- `pointclouds.py:714-748` `clone` (and `detach`, `:750-784`): (new object, self). -/
def clone (ops : Ops P Q F K) (s : State P Q F) :
    Except Err (State P Q F × State P Q F) :=
  if s.ptsList.isSome then do
    let (pl, s) ← getPtsList s
    let (nl, s) ← getNormalsList s
    let (fl, s) ← getFeaturesList s
    let o ← mk (.list pl) (auxOfList nl) (auxOfList fl)
    .ok (copyTensors s o, s)
  else do
    let (v, s) ← getPadded ops s
    match v.pts with
    | none => .error .assertionError
    | some pp =>
      let o ← mk (.padded s.maxP pp) (auxOfPadded s.maxP v.normals) (auxOfPadded s.maxP v.features)
      .ok (copyTensors s o, s)

/-- `pointclouds.py:881-909` `offset_`. -/
def offset (ops : Ops P Q F K) (d : Offset P) (s : State P Q F) : Except Err (State P Q F) := do
  let s ← computePacked s
  match s.ptsPacked with
  | none => .error .assertionError
  | some p =>
    let dl := match d with
      | .vec v => List.replicate p.length v
      | .full l => l
    if dl.length ≠ p.length then .error .valueError
    else
      let np := List.zipWith ops.add p dl
      let nl ← packedToList np s.num
      .ok { s with
        ptsPacked := some np
        ptsList := some nl
        ptsPadded := s.ptsPadded.map (fun pp => overwritePadded pp nl) }

/-- `pointclouds.py:973-998` `scale_`, one factor per cloud (a Python scalar is expanded,
`:985-986`).  A missing factor is an `IndexError`; extra factors are ignored. -/
def scale (ops : Ops P Q F K) (k : List K) (s : State P Q F) : Except Err (State P Q F) := do
  let (pl, s) ← getPtsList s
  if k.length < pl.length then .error .indexError
  else
    let nl := List.zipWith (fun c v => v.map (ops.smul c)) k pl
    .ok { s with
      ptsList := some nl
      ptsPacked := s.ptsPacked.map (fun _ => nl.flatten)
      ptsPadded := s.ptsPadded.map (fun pp => overwritePadded pp nl) }

/-- `check_shapes` of `update_padded` (`pointclouds.py:1135-1145`); `true` when it raises. -/
def badShape (N maxP : Nat) (t : List (List Q)) : Bool :=
  t.length != N || t.any (fun r => r.length != maxP)

/-- Auxiliary data of the object made by `update_padded` (`pointclouds.py:1161-1173`,
`:1193-1201`): kept when no new tensor is given. -/
def updateAux (old : Aux Q) (new : Option (List (List Q))) : Aux Q :=
  match new with
  | none => old
  | some t => ⟨none, some t, none⟩

/-- `pointclouds.py:1117-1202` `update_padded`.  (For `N = 0` the constructor drops given auxiliary
tensors but `:1193-1201` stores them again.) -/
def updatePadded (np : List (List P)) (nn : Option (List (List Q))) (nf : Option (List (List F)))
    (s : State P Q F) : Except Err (State P Q F) :=
  if badShape s.N s.maxP np then .error .valueError
  else if nn.any (badShape s.N s.maxP) then .error .valueError
  else if nf.any (badShape s.N s.maxP) then .error .valueError
  else
    .ok {
      N := np.length
      maxP := s.maxP
      valid := s.valid
      equisized := s.equisized
      num := s.num
      ptsList := none
      ptsPadded := some np
      ptsPacked := none
      cloudIdx := s.cloudIdx
      padToPacked := s.padToPacked
      normals := updateAux s.normals nn
      features := updateAux s.features nf }

/-- `pointclouds.py:1033-1083` `estimate_normals(assign_to_self=True)` with the estimate `est` as a
parameter: the estimation reads `points_padded` (`ops/utils.py` `convert_pointclouds_to_tensor`), then
`:1073-1082` store it. -/
def assignNormals (ops : Ops P Q F K) (est : List (List Q)) (s : State P Q F) :
    Except Err (State P Q F) := do
  let s ← computePadded ops s
  let x ← parseAux s.N s.maxP s.num (.padded s.maxP est)
  let s := { s with normals := { list := none, padded := x.padded, packed := none } }
  let s ← (if s.ptsList.isSome then (getNormalsList s).map Prod.snd else .ok s)
  if s.ptsPacked.isSome then
    match s.normals.list with
    | none => .error .runtimeError
    | some l => .ok { s with normals := { s.normals with packed := some l.flatten } }
  else .ok s

/-! ## Operations that build new objects from the lists -/

/-- `normals_list[index]` when there are normals. -/
def selectOpt (ix : Index) (l : Option (List (List Q))) : Except Err (Option (List (List Q))) :=
  match l with
  | none => .ok none
  | some l => (ix.select l).map some

/-- `pointclouds.py:369-422` `__getitem__`: (selected object, self). -/
def getItem (ix : Index) (s : State P Q F) : Except Err (State P Q F × State P Q F) := do
  let (nl, s) ← getNormalsList s
  let (fl, s) ← getFeaturesList s
  let (pl, s) ← getPtsList s
  let p ← ix.select pl
  let n ← selectOpt ix nl
  let f ← selectOpt ix fl
  let o ← mk (.list p) (auxOfList n) (auxOfList f)
  .ok (o, s)

/-- `pointclouds.py:859-879` `split`. -/
def split (sizes : List Nat) (s : State P Q F) :
    Except Err (List (State P Q F) × State P Q F) :=
  go 0 sizes s
where
  go (cur : Nat) : List Nat → State P Q F → Except Err (List (State P Q F) × State P Q F)
    | [], s => .ok ([], s)
    | n :: ns, s => do
      let (m, s) ← getItem (.slice cur (cur + n)) s
      let (ms, s) ← go (cur + n) ns s
      .ok (m :: ms, s)

/-- `pointclouds.py:1085-1115` `extend`. -/
def extend (n : Nat) (s : State P Q F) : Except Err (State P Q F × State P Q F) :=
  if n = 0 then .error .valueError
  else do
    let (pl, s) ← getPtsList s
    let (nl, s) ← getNormalsList s
    let (fl, s) ← getFeaturesList s
    let o ← mk (.list (pl.flatMap (fun p => List.replicate n p)))
      (auxOfList (nl.map (fun l => l.flatMap (fun p => List.replicate n p))))
      (auxOfList (fl.map (fun l => l.flatMap (fun p => List.replicate n p))))
    .ok (o, s)

/-- `pointclouds.py:829-856` `get_cloud`: note the bound check `index > self._N`. -/
def getCloud (index : Int) (s : State P Q F) :
    Except Err ((List P × Option (List Q) × Option (List F)) × State P Q F) :=
  if index < 0 ∨ index > s.N then .error .valueError
  else do
    let (pl, s) ← getPtsList s
    let (nl, s) ← getNormalsList s
    let (fl, s) ← getFeaturesList s
    match pl[index.toNat]? with
    | some p => .ok ((p, nl.bind (fun l => l[index.toNat]?), fl.bind (fun l => l[index.toNat]?)), s)
    | none => .error .indexError

/-- `x[keep]` with the random selection `keep` (`pointclouds.py:956-962`), or `x` itself when the
cloud is small enough. -/
def keepRows (n mx : Nat) (keep : List Nat) (x : List Q) : Except Err (List Q) :=
  if n > mx then gather x keep else .ok x

/-- The loop of `subsample` for one attribute: sizes, maxima, draws and lists run together. -/
def subsampleRows (num mxs : List Nat) (draws : List (List Nat)) (l : List (List Q)) :
    Except Err (List (List Q)) :=
  (List.zip (List.zip num mxs) (List.zip draws l)).mapM
    (fun t => keepRows t.1.1 t.1.2 t.2.1 t.2.2)

/-- The loop of `subsample` for an optional attribute. -/
def subsampleOpt (num mxs : List Nat) (draws : List (List Nat)) (l : Option (List (List Q))) :
    Except Err (Option (List (List Q))) :=
  match l with
  | none => .ok none
  | some l => (subsampleRows num mxs draws l).map some

/-- `pointclouds.py:925-971` `subsample`.  `draws` are the results of
`np.random.choice(n_points, max_, replace=False)`, one per cloud (ignored for the clouds that are
small enough).  (result, self); the result is `self` if nothing is to be done. -/
def subsample (mxs : List Nat) (draws : List (List Nat)) (s : State P Q F) :
    Except Err (State P Q F × State P Q F) :=
  if mxs.length ≠ s.N then .error .valueError
  else if (List.zip s.num mxs).all (fun p => decide (p.1 ≤ p.2)) then .ok (s, s)
  else do
    let (pl, s) ← getPtsList s
    let (fl, s) ← getFeaturesList s
    let (nl, s) ← getNormalsList s
    let p ← subsampleRows s.num mxs draws pl
    let f ← subsampleOpt s.num mxs draws fl
    let n ← subsampleOpt s.num mxs draws nl
    let o ← mk (.list p) (auxOfList n) (auxOfList f)
    .ok (o, s)

/-- One field of `join_pointclouds_as_batch`, `pointclouds.py:1266-1284`: all `None`, or all
present and concatenated, else `ValueError`. -/
def joinField (l : List (Option (List (List Q)))) : Except Err (Option (List (List Q))) :=
  if l.any Option.isNone then
    (if l.all Option.isNone then .ok none else .error .valueError)
  else .ok (some (l.filterMap id).flatten)

/-- `pointclouds.py:1247-1285` `join_pointclouds_as_batch`.  An empty sequence fails at
`pointclouds[0]`. -/
def joinBatch (cs : List (State P Q F)) : Except Err (State P Q F) :=
  if cs.isEmpty then .error .indexError
  else do
    let ps ← cs.mapM (fun c => (getPtsList c).map Prod.fst)
    let ns ← cs.mapM (fun c => (getNormalsList c).map Prod.fst)
    let fs ← cs.mapM (fun c => (getFeaturesList c).map Prod.fst)
    let n ← joinField ns
    let f ← joinField fs
    mk (.list ps.flatten) (auxOfList n) (auxOfList f)

/-- `pointclouds.py:1288-1318` `join_pointclouds_as_scene` of one object. -/
def joinScene (s : State P Q F) : Except Err (State P Q F) :=
  if s.N = 1 then .ok s
  else do
    let (v, _) ← getPacked s
    match v.pts with
    | none => .error .assertionError
    | some p =>
      mk (.padded p.length [p]) (auxOfPadded p.length (v.normals.map (fun n => [n])))
        (auxOfPadded p.length (v.features.map (fun n => [n])))

/-- The box(es) passed to `inside_box`: one for all clouds, or one per cloud. -/
inductive BoxIn (B : Type) where
  | one (b : B)
  | perCloud (l : List B)

/-- `pointclouds.py:1204-1244` `inside_box`.  `valid b` = "no min larger than max", `inside b p` =
coordinatewise comparison.  A list of one box is broadcast (`:1234-1235`). -/
def insideBox {B : Type} (valid : B → Bool) (inside : B → P → Bool) (box : BoxIn B)
    (s : State P Q F) : Except Err (List Bool × State P Q F) :=
  let boxes := match box with
    | .one b => [b]
    | .perCloud l => l
  if boxes.length ≠ 1 ∧ boxes.length ≠ s.N then .error .valueError
  else if !boxes.all valid then .error .valueError
  else do
    let (v, s) ← getPacked s
    match v.pts with
    | none => .error .assertionError
    | some p =>
      match boxes with
      | [b] => .ok (p.map (inside b), s)
      | bs =>
        let full := (List.zipWith (fun b n => List.replicate n b) bs s.num).flatten
        if full.length ≠ p.length then .error .runtimeError
        else .ok (List.zipWith inside full p, s)

end P3D.Clouds
