/-
Model of K-nearest-neighbour search: `csrc/knn/knn_cpu.cpp`, `csrc/knn/knn.cu` with
`csrc/utils/mink.cuh`, and the Python side `ops/knn.py`.

Numbers are an arbitrary ordered field.  `none` stands for undefined behaviour of the C++ code.
-/
import Verif.Mem
import Verif.TopK
import Mathlib.Algebra.Order.Field.Basic
import Mathlib.Data.Prod.Lex
import Mathlib.Order.WithBot

namespace P3D.Knn

/-! ## Distances -/

section dist
variable {R : Type*} [Field R] [LinearOrder R]

/-- `knn_cpu.cpp:44-49`, `knn.cu:56-60`: contribution of one coordinate. -/
def coordDist (norm : Nat) (x y : R) : R :=
  if norm = 1 then |x - y| else (x - y) * (x - y)

/-- `knn_cpu.cpp:42-50`: the accumulation over the coordinates. -/
def pdist (norm : Nat) (p q : List R) : R :=
  (List.zip p q).foldl (fun acc xy => acc + coordDist norm xy.1 xy.2) 0

end dist

/-! ## CPU: the priority queue -/

section cpu
variable {R : Type*} [LinearOrder R]

/-- `std::priority_queue<std::tuple<float,int>>` as the list of its items in descending
(lexicographic) order; `emplace`.  `top()` is the head, `pop()` removes it. -/
def pqPush (x : R ×ₗ Nat) (q : List (R ×ₗ Nat)) : List (R ×ₗ Nat) := q.orderedInsert (· ≥ ·) x

/-- `knn_cpu.cpp:51-57`: one candidate.  `q.top()` of an empty queue is undefined. -/
def knnStep (K : Nat) (q : List (R ×ₗ Nat)) (x : R × Nat) : Option (List (R ×ₗ Nat)) :=
  if q.length < K then some (pqPush (toLex x) q)
  else
    match q with
    | [] => none
    | t :: _ => if x.1 < (ofLex t).1 then some (pqPush (toLex x) q).tail else some q

/-- `knn_cpu.cpp:41-58`: the loop over `i2` (`ds` are the distances in order). -/
def knnLoop (K : Nat) (ds : List R) : Option (List (R ×ₗ Nat)) :=
  ds.zipIdx.foldlM (knnStep K) []

/-- `knn_cpu.cpp:59-65`: the stores made while the queue is emptied. -/
def drainWrites : List (R ×ₗ Nat) → List (Nat × (R × Nat))
  | [] => []
  | t :: q => (q.length, ofLex t) :: drainWrites q

/-- `knn_cpu.cpp:40-65`: one query point; the result is the row of `K` (distance, index) pairs,
initially zero (`:28-29`). -/
def knnRow [Zero R] (K : Nat) (ds : List R) : Option (List (R × Nat)) := do
  let q ← knnLoop K ds
  Mem.writeAll (List.replicate K (0, 0)) (drainWrites q)

end cpu

/-- `knn_cpu.cpp:13-69` `KNearestNeighborIdxCpu`, for one batch element: rows of (distance, index)
for the `P1` points of the first cloud; rows beyond `length1` stay zero.  (`lengths2 ≤ P2`.) -/
def knnCloudCpu {R : Type*} [Field R] [LinearOrder R] (norm K : Nat) (p1 p2 : List (List R))
    (len1 len2 : Nat) : Option (List (List (R × Nat))) :=
  p1.zipIdx.mapM (fun pi =>
    if pi.2 < len1 then knnRow K ((p2.take len2).map (pdist norm pi.1))
    else some (List.replicate K (0, 0)))

/-! ## GPU: `MinK` -/

section mink
variable {κ ν : Type*} [LinearOrder κ]

/-- `mink.cuh:40-117` `MinK` (and `RegisterMinK`, `:128-166`): the `_size` items stored so far and
the largest key with its position (not initialised before the first `add`). -/
structure MinK (κ ν : Type*) where
  items : List (κ × ν)
  max : Option (κ × Nat)

/-- Constructor, `mink.cuh:49-50`. -/
def MinK.new : MinK κ ν := ⟨[], none⟩

/-- `mink.cuh:75-81`: search for the new largest key, starting from `(max_key, max_idx)`. -/
def rescan (items : List (κ × ν)) (m : κ × Nat) : κ × Nat :=
  items.zipIdx.foldl (fun m kv => if kv.1.1 > m.1 then (kv.1.1, kv.2) else m) m

/-- `mink.cuh:62-83` `add`.  Reading the uninitialised `max_key` (only for `K = 0`) is undefined. -/
def MinK.add (K : Nat) (s : MinK κ ν) (x : κ × ν) : Option (MinK κ ν) :=
  if s.items.length < K then
    some ⟨s.items ++ [x],
      match s.max with
      | none => some (x.1, 0)
      | some m =>
        if s.items.length = 0 ∨ x.1 > m.1 then some (x.1, s.items.length) else some m⟩
  else
    match s.max with
    | none => none
    | some m =>
      if x.1 < m.1 then
        let items := s.items.set m.2 x
        some ⟨items, some (rescan items (x.1, m.2))⟩
      else some s

/-- A sequence of additions. -/
def MinK.addAll (K : Nat) (xs : List (κ × ν)) : Option (MinK κ ν) :=
  xs.foldlM (MinK.add K) MinK.new

/-- Inner loop of `sort` (`mink.cuh:95-104`): `n` compare-and-swap steps from the left. -/
def bubblePass : Nat → List (κ × ν) → List (κ × ν)
  | n + 1, a :: b :: l => if b.1 < a.1 then b :: bubblePass n (a :: l) else a :: bubblePass n (b :: l)
  | _, l => l

/-- Outer loop of `sort` (`mink.cuh:94-105`): passes of `n`, `n-1`, …, 1 steps. -/
def bubbleLoop : Nat → List (κ × ν) → List (κ × ν)
  | 0, l => l
  | n + 1, l => bubbleLoop n (bubblePass (n + 1) l)

/-- `mink.cuh:93-106` `sort`. -/
def MinK.sort (l : List (κ × ν)) : List (κ × ν) := bubbleLoop (l.length - 1) l

/-- One query on the GPU (`knn.cu:48-64`, `:90-105`, `:160-185`, `:245-270`; all versions do this):
items of `MinK` followed by the zeros of the output tensors (`:343-344`). -/
def knnRowGpu [Zero κ] (K : Nat) (ds : List κ) : Option (List (κ × Nat)) :=
  (MinK.addAll K ds.zipIdx).map (fun s => s.items ++ List.replicate (K - s.items.length) (0, 0))

end mink

/-! ## Python -/

section python
variable {R : Type*} [LinearOrder R] [Zero R]

/-- `knn.py:78-84`: distances with the irrelevant entries replaced by infinity (`short`:
`lengths2.min() < K`). -/
def maskRow (short : Bool) (len2 : Nat) (row : List (R × Nat)) : List (WithTop R) :=
  row.zipIdx.map (fun e => if short && decide (len2 ≤ e.2) then ⊤ else ((e.1.1 : R) : WithTop R))

/-- What `sort` may return as `sort_idx` for the keys `ks` (the sort is not stable). -/
def IsSortIdx (ks : List (WithTop R)) (σ : List Nat) : Prop :=
  σ.Perm (List.range ks.length) ∧ (σ.map (fun i => ks.getD i ⊤)).Pairwise (· ≤ ·)

/-- `knn.py:76-89` for one row, with the `sort_idx` returned by torch: (dists, idx). -/
def sortRow (K : Nat) (returnSorted short : Bool) (len2 : Nat) (row : List (R × Nat))
    (σ : List Nat) : List (WithTop R) × List Nat :=
  if decide (K > 1) && returnSorted then
    let ks := maskRow short len2 row
    let sorted := σ.map (fun i => ks.getD i ⊤)
    let dists := sorted.zipIdx.map (fun e => if short && decide (len2 ≤ e.2) then 0 else e.1)
    (dists, σ.map (fun i => (row.map Prod.snd).getD i 0))
  else (row.map (fun e => ((e.1 : R) : WithTop R)), row.map Prod.snd)

/-- `knn.py:231-247`: one gathered entry `(index, k)`, zero if `k ≥ lengths` (when any length is
smaller than `K`). -/
def gatherCell {U : Type*} (zero : U) (short : Bool) (len2 : Nat) (x : List U) (e : Nat × Nat) :
    Option U :=
  (x[e.1]?).map (fun u => if short && decide (len2 ≤ e.2) then zero else u)

/-- `knn.py:200-249` `knn_gather` for one point: gather, then zero the rows `k ≥ lengths`. -/
def gatherRow {U : Type*} (zero : U) (short : Bool) (len2 : Nat) (x : List U) (idx : List Nat) :
    Option (List U) :=
  (idx.zipIdx).mapM (gatherCell zero short len2 x)

end python

end P3D.Knn
