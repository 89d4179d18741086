/-
Model of farthest point sampling: `csrc/sample_farthest_points/sample_farthest_points_cpu.cpp`,
`sample_farthest_points.cu` and `ops/sample_farthest_points.py` (`sample_farthest_points_naive`).

`d q p` is the squared distance between points `q` and `p` of one cloud, with values in an arbitrary
linear order with zero.  `none` (outer) stands for undefined behaviour, `none` entries of the result
are the pad value −1.
-/
import Verif.Chunks
import Verif.Mem
import Mathlib.Algebra.Order.Ring.Defs
import Mathlib.Order.WithBot
import Mathlib.Data.List.Induction

namespace P3D.Fps
open P3D.Chunks

section model
variable {S : Type*} [LinearOrder S]

/-- `std::max_element` / `torch.argmax`: position of the first largest element. -/
def maxElem : List S → Nat
  | [] => 0
  | x :: l => ((l.zipIdx 1).foldl (fun (b : S × Nat) y => if b.1 < y.1 then y else b) (x, 0)).2

/-- State of the CPU loop (`:36-59`). -/
structure Cpu (S : Type*) where
  mask : List Bool
  dists : List S
  last : Nat

/-- `sample_farthest_points_cpu.cpp:70-89`: the new distance of point `p`. -/
def cpuDist [Zero S] (d : Nat → Nat → S) (s : Cpu S) (p : Nat) (old : S) : S :=
  if s.mask.getD p false then 0 else if d s.last p < old then d s.last p else old

/-- `sample_farthest_points_cpu.cpp:68-101`: one iteration `k`. -/
def cpuStep [Zero S] (d : Nat → Nat → S) (s : Cpu S) : Cpu S :=
  let dists := s.dists.zipIdx.map (fun e => cpuDist d s e.2 e.1)
  let last := maxElem dists
  ⟨s.mask.set last true, dists, last⟩

/-- The iterations `k = 1 … n`: the selected indices. -/
def cpuLoop [Zero S] (d : Nat → Nat → S) : Nat → Cpu S → List Nat
  | 0, _ => []
  | n + 1, s => let s' := cpuStep d s; s'.last :: cpuLoop d n s'

/-- `sample_farthest_points_cpu.cpp:45-102`: one cloud of `len` points.  The store to
`sampled_indices[n][0]` needs `max_K ≥ 1`, the one to `selected_points_mask[last_idx]` needs
`start < len`.  (`k ≤ maxK` holds by definition of `max_K`.) -/
def fpsCpu [Zero S] (big : S) (d : Nat → Nat → S) (len k maxK start : Nat) :
    Option (List (Option Nat)) :=
  if maxK = 0 then none
  else if len ≤ start then none
  else
    let s : Cpu S := ⟨(List.replicate len false).set start true, List.replicate len big, start⟩
    let sel := start :: cpuLoop d (min len k - 1) s
    some (sel.map some ++ List.replicate (maxK - sel.length) none)

/-- `ops/sample_farthest_points.py:157-173` (naive): the same with `closest_dists` starting at
infinity and without the mask. -/
def naiveLoop (d : Nat → Nat → S) : Nat → List S → Nat → List Nat
  | 0, _, _ => []
  | n + 1, closest, last =>
    let closest' := closest.zipIdx.map (fun e => min (d last e.2) e.1)
    maxElem closest' :: naiveLoop d n closest' (maxElem closest')

/-- `sample_farthest_points_naive` for one cloud; `torch.full`/indexing: `len ≥ 1` and `max_K ≥ 1`
are needed. -/
def fpsNaive (inf : S) (d : Nat → Nat → S) (len k maxK start : Nat) : Option (List (Option Nat)) :=
  if maxK = 0 ∨ len ≤ start then none
  else
    let sel := start :: naiveLoop d (min len k - 1) (List.replicate len inf) start
    some (sel.map some ++ List.replicate (maxK - sel.length) none)

/-! ### CUDA -/

/-- `sample_farthest_points.cu:56-84`: thread `tid` of `B`: largest distance seen, first index. -/
def threadMax (neg1 : S) (B len : Nat) (minDist : Nat → S) (tid : Nat) : Nat × S :=
  (strideLoop tid B len).foldl
    (fun b p => (if minDist p > b.2 then p else b.1, if minDist p > b.2 then minDist p else b.2))
    (0, neg1)

/-- `cub::ArgMax`: larger value, on ties the smaller key. -/
def argMaxOp (a b : Nat × S) : Nat × S :=
  if b.2 > a.2 ∨ (a.2 = b.2 ∧ b.1 < a.1) then b else a

/-- A block reduction combines the values of the threads in some order
(`BLOCK_REDUCE_RAKING_COMMUTATIVE_ONLY`). -/
inductive Tree (α : Type*) where
  | leaf : α → Tree α
  | node : Tree α → Tree α → Tree α

/-- The values combined by a reduction. -/
def Tree.leaves {α : Type*} : Tree α → List α
  | .leaf a => [a]
  | .node l r => l.leaves ++ r.leaves

/-- The result of a reduction. -/
def Tree.eval {α : Type*} (op : α → α → α) : Tree α → α
  | .leaf a => a
  | .node l r => op (l.eval op) (r.eval op)

/-- `sample_farthest_points.cu:60-74`: `min_point_dist` after the selections `sel` (initially
`big = 1e10`, `:141`). -/
def gpuMinDist (big : S) (d : Nat → Nat → S) (sel : List Nat) (p : Nat) : S :=
  sel.foldl (fun m q => min (d q p) m) big

/-- `sample_farthest_points.cu:41-106`: the runs of one block: the selections made so far (the
reduction order is not determined). -/
inductive GpuRun (neg1 big : S) (d : Nat → Nat → S) (B len start : Nat) : List Nat → Prop
  | init : GpuRun neg1 big d B len start [start]
  | step {sel : List Nat} (t : Tree (Nat × S)) (h : GpuRun neg1 big d B len start sel)
      (ht : t.leaves.Perm ((List.range B).map (threadMax neg1 B len (gpuMinDist big d sel)))) :
      GpuRun neg1 big d B len start (sel ++ [(t.eval argMaxOp).1])

end model

/-- `sample_farthest_points.cu:158-162`: `max(min(1 << points_pow_2, 1024), 2)` (the quotient of
logarithms taken as exact). -/
def fpsThreads (P : Nat) : Nat := max (min (2 ^ Nat.log2 P) 1024) 2

/-- `sample_farthest_points.cu:152, 178-229`: the number of blocks launched: `N`, except in the
cases 4 and 2 of the `switch`, which pass `threads` as the number of blocks. -/
def fpsGrid (N P : Nat) : Nat :=
  if fpsThreads P = 4 ∨ fpsThreads P = 2 then fpsThreads P else N

/-- `sample_farthest_points.cu:107-234`: the output rows; `run n` is what block `n` selects.  Blocks
`n ≥ N` access the tensors out of bounds; rows without a block keep −1. -/
def fpsCuda (N P maxK : Nat) (run : Nat → List Nat) : Option (List (List (Option Nat))) :=
  if N = 0 ∨ P = 0 then some (List.replicate N (List.replicate maxK none))
  else if N < fpsGrid N P then none
  else some ((List.range N).map (fun n =>
    if n < fpsGrid N P then (run n).map some ++ List.replicate (maxK - (run n).length) none
    else List.replicate maxK none))

end P3D.Fps
