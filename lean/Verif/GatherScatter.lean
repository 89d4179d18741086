/-
Model of neighbour aggregation and graph convolution.

* `pytorch3d/ops/graph_conv.py` 52-85 (GraphConv.forward), 92-134 (gather_scatter_python),
  137-181 (GatherScatter forward / backward)
* `pytorch3d/csrc/gather_scatter/gather_scatter.cu` 14-93

Numbers are elements of a commutative ring (rounding is not modelled); features are functions of
(vertex, channel).  A CUDA execution performs the kernel's atomic additions in some order; the
kernel is modelled by the list of its additions, and theorems quantify over all permutations.
-/
import Verif.Scatter
import Verif.Chunks
import Mathlib.Algebra.Ring.Basic

namespace P3D.GatherScatter
open P3D.Scatter P3D.Chunks

variable {R : Type*} [CommRing R]

inductive Err | indexOutOfBounds | invalidConfiguration
  deriving DecidableEq, Repr

/-- `output.scatter_add(0, idx_to, input.gather(0, idx_from))` on a zero or earlier output:
graph_conv.py 129-131; for each edge (row) and each channel one addition. -/
def scatterRows (D : Nat) (input : Nat × Nat → R) (pairs : List (Nat × Nat)) :
    List ((Nat × Nat) × R) :=
  pairs.flatMap fun p => (List.range D).map fun d => ((p.1, d), input (p.2, d))

/-- `gather_scatter_python`, graph_conv.py 92-134, for `V` vertices and `D` channels.  `gather` and
`scatter_add` raise when an index is out of range. -/
def gsPython (V D : Nat) (input : Nat × Nat → R) (edges : List (Nat × Nat)) (directed : Bool) :
    Except Err (Nat × Nat → R) :=
  if edges.all fun e => decide (e.1 < V) && decide (e.2 < V) then
    .ok (scatterAdd (scatterRows D input edges ++
      if directed then [] else scatterRows D input (edges.map Prod.swap)))
  else .error .indexOutOfBounds

/-- Additions made for edge `e` and channel `d`, gather_scatter.cu 24-45. -/
def edgeAdds (input : Nat × Nat → R) (directed backward : Bool) (e : Nat × Nat) (d : Nat) :
    List ((Nat × Nat) × R) :=
  let v0 := if backward then e.2 else e.1
  let v1 := if backward then e.1 else e.2
  ((v0, d), input (v1, d)) :: if directed then [] else [((v1, d), input (v0, d))]

/-- All additions of `GatherScatterCudaKernel` (gather_scatter.cu 14-49) with `grid` blocks of
`block` threads: block `b` takes edges `b, b + grid, ..`, thread `t` channels `t, t + block, ..`. -/
def kernelAdds (grid block D : Nat) (input : Nat × Nat → R) (edges : List (Nat × Nat))
    (directed backward : Bool) : List ((Nat × Nat) × R) :=
  (List.range grid).flatMap fun b => (List.range block).flatMap fun t =>
    (strideLoop b grid edges.length).flatMap fun e => (strideLoop t block D).flatMap fun d =>
      edgeAdds input directed backward (edges.getD e (0, 0)) d

/-- `GatherScatterCuda`, gather_scatter.cu 51-93: the launch with `min(E, 1920)` blocks of 128
threads; an empty output returns early; launching zero blocks is a CUDA error, reported by
`AT_CUDA_CHECK`. The result is the list of atomic additions that are made. -/
def gsCudaAdds (V D : Nat) (input : Nat × Nat → R) (edges : List (Nat × Nat))
    (directed backward : Bool) : Except Err (List ((Nat × Nat) × R)) :=
  if V * D = 0 then .ok []
  else if edges.length = 0 then .error .invalidConfiguration
  else .ok (kernelAdds (if edges.length < 1920 then edges.length else 1920) 128 D input edges
    directed backward)

/-- `torch.nn.Linear`: `x W^T + b`. -/
def linear (Din : Nat) (W : Nat × Nat → R) (b : Nat → R) (x : Nat × Nat → R) : Nat × Nat → R :=
  fun p => ((List.range Din).map fun k => x (p.1, k) * W (p.2, k)).sum + b p.2

/-- `GraphConv.forward` on the CPU, graph_conv.py 52-85. -/
def graphConv (V Din Dout : Nat) (w0 w1 : Nat × Nat → R) (b0 b1 : Nat → R) (verts : Nat × Nat → R)
    (edges : List (Nat × Nat)) (directed : Bool) : Except Err (Nat × Nat → R) :=
  if V = 0 then .ok (fun _ => 0)
  else (gsPython V Dout (linear Din w1 b1 verts) edges directed).map fun s =>
    fun p => linear Din w0 b0 verts p + s p

end P3D.GatherScatter
