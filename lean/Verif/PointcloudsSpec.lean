/-
Specification of `Pointclouds` (C12, C13): a batch is a list of clouds with optional normals and
features; every view is a function of these.  Nothing here refers to caches.
-/
import Verif.Pointclouds
import Verif.MeshesRefine

namespace P3D.Clouds

open P3D.StructUtils
open P3D.Meshes (allSame maxNat overwritePadded Offset Index Coh)
open P3D.Meshes.Abs (meshIdx firsts reshapeLike)

variable {P Q F K : Type}

/-- Data of a batch and the contents of the padding of its padded form. -/
structure Col (Q : Type) where
  data : List (List Q)
  pad : List (List Q)

/-- The padded form. -/
def Col.padded (c : Col Q) : List (List Q) := List.zipWith (· ++ ·) c.data c.pad

/-- Data of a ragged list with padding by `zero` up to `m` rows. -/
def Col.ofList (m : Nat) (zero : Q) (l : List (List Q)) : Col Q where
  data := l
  pad := l.map (fun y => List.replicate (m - y.length) zero)

/-- Data from a padded tensor, cut at the sizes of the clouds. -/
def Col.ofPadded (num : List Nat) (t : List (List Q)) : Col Q where
  data := List.zipWith (fun (r : List Q) n => r.take n) t num
  pad := List.zipWith (fun (r : List Q) n => r.drop n) t num

/-- Abstract value of a `Pointclouds` object.  `padMade`: the padded view of the points exists
(object built from a padded tensor, or a padded accessor has been called). -/
structure Abs (P Q F : Type) where
  pts : Col P
  normals : Option (Col Q)
  features : Option (Col F)
  padMade : Bool

namespace Abs

/-- Sizes of the clouds. -/
def num (a : Abs P Q F) : List Nat := a.pts.data.map List.length

/-- Size of the largest cloud. -/
def maxP (a : Abs P Q F) : Nat := maxNat a.num

/-- The packed view: concatenations, cloud of each point, first index of each cloud. -/
def packed (a : Abs P Q F) : PackedView P Q F where
  pts := some a.pts.data.flatten
  normals := a.normals.map (fun c => c.data.flatten)
  features := a.features.map (fun c => c.data.flatten)
  cloudIdx := some (meshIdx a.num, firsts a.num)

/-- The padded view. -/
def padded (a : Abs P Q F) : PaddedView P Q F where
  pts := some a.pts.padded
  normals := a.normals.map Col.padded
  features := a.features.map Col.padded

/-- Positions of the points in the flattened padded tensor. -/
def padToPacked (a : Abs P Q F) : List Nat :=
  (a.num.zipIdx.map (fun p => (List.range p.1).map (fun j => j + p.2 * a.maxP))).flatten

end Abs

/-- A column fits a batch with cloud sizes `num`: one row per point, padding up to the largest. -/
structure Col.Fits (num : List Nat) (c : Col Q) : Prop where
  lens : c.data.map List.length = num
  lenPad : c.pad.length = num.length
  width : ∀ r ∈ c.padded, r.length = maxNat num

/-- Well-formed batches. -/
structure Abs.WF (a : Abs P Q F) : Prop where
  ne : a.pts.data ≠ []
  pts : a.pts.Fits a.num
  normals : ∀ c, a.normals = some c → c.Fits a.num
  features : ∀ c, a.features = some c → c.Fits a.num

/-- The cached forms of an auxiliary attribute agree with the column (`none` = no such attribute). -/
def AuxInv (num : List Nat) (zero : Q) (padMade packMade : Bool) (c : Option (Col Q)) (x : Aux Q) :
    Prop :=
  match c with
  | none => x.list = none ∧ x.padded = none ∧ (packMade = true → x.packed = none)
  | some c => Coh x.list c.data ∧
      (padMade = true → x.padded = some c.padded) ∧
      (padMade = false → x.list = some c.data ∧ c = Col.ofList (maxNat num) zero c.data) ∧
      (packMade = true → x.packed = some c.data.flatten)

/-- Representation invariant: the object `s` stands for the batch `a`. -/
structure Inv (ops : Ops P Q F K) (a : Abs P Q F) (s : State P Q F) : Prop where
  wf : a.WF
  hN : s.N = a.pts.data.length
  hP : s.maxP = a.maxP
  hvalid : s.valid.any id = true
  hnum : s.num = a.num
  heq : a.padMade = false → s.equisized = true → allSame a.num = true
  hmade : s.ptsPadded.isSome = a.padMade
  hl : Coh s.ptsList a.pts.data
  hp : Coh s.ptsPadded a.pts.padded
  hdata : a.padMade = false →
    s.ptsList.isSome ∧ a.pts = Col.ofList a.maxP ops.zero a.pts.data
  hpk : Coh s.ptsPacked a.pts.data.flatten
  hci : Coh s.cloudIdx (meshIdx a.num, firsts a.num)
  hcp : s.ptsPacked.isSome → s.cloudIdx.isSome
  hlp : s.ptsPacked.isSome → s.ptsList.isSome
  hpp : Coh s.padToPacked a.padToPacked
  hn : AuxInv a.num ops.zeroN a.padMade s.ptsPacked.isSome a.normals s.normals
  hf : AuxInv a.num ops.zeroF a.padMade s.ptsPacked.isSome a.features s.features

end P3D.Clouds
