/-
Model of the packed/padded conversion kernels
(`pytorch3d/csrc/packed_to_padded_tensor/packed_to_padded_tensor_cpu.cpp` and `.cu`).

A row of `D` scalars is one value of type `α`; the `(N, max_size, D)` output is the flat buffer of
its `N * max_size` rows, row `(b, i)` at address `b * max_size + i` (contiguous accessor).
-/
import Verif.Mem

namespace P3D.PackedPadded

open P3D.Mem

variable {α : Type*}

/-- `packed_to_padded_tensor_cpu.cpp:28-29` (and `:58-59`): `start`. -/
def segStart (first : List Nat) (b : Nat) : Nat := first.getD b 0

/-- `packed_to_padded_tensor_cpu.cpp:30` (and `:60`): `end`. -/
def segEnd (first : List Nat) (num b : Nat) : Nat :=
  if b + 1 < first.length then first.getD (b+1) 0 else num

/-- The loop nest of lines 27-38 / 57-68 as the list of (padded address, packed address) pairs in
program order.  (A negative `end - start` makes the C++ loop empty, as does truncated
subtraction.) -/
def pairs (first : List Nat) (num maxSize : Nat) : List (Nat × Nat) :=
  (List.range first.length).flatMap fun b =>
    (List.range (segEnd first num b - segStart first b)).map fun i =>
      (b * maxSize + i, segStart first b + i)

/-- Read the source address of a copy; `none` = out-of-bounds read. -/
def load (src : List α) (p : Nat × Nat) : Option (Nat × α) :=
  (src[p.2]?).map (fun v => (p.1, v))

/-- Execute copies `dst[p.1] = src[p.2]` in the given order; `none` = some access out of bounds.
Source and destination are different buffers so all loads can be done first. -/
def copyAll (dst src : List α) (ps : List (Nat × Nat)) : Option (List α) :=
  (ps.mapM (load src)).bind (writeAll dst)

/-- `packed_to_padded_tensor_cpu.cpp:11-40` `PackedToPaddedCpu`; with a permuted `ps` the CUDA
kernels `packed_to_padded_tensor.cu:14-65` (every thread performs a subset of the same copies). -/
def packedToPaddedWith (ps : List (Nat × Nat)) (zero : α) (packed : List α) (first : List Nat)
    (maxSize : Nat) : Option (List α) :=
  copyAll (List.replicate (first.length * maxSize) zero) packed ps

/-- CPU program order. -/
def packedToPadded (zero : α) (packed : List α) (first : List Nat) (maxSize : Nat) :=
  packedToPaddedWith (pairs first packed.length maxSize) zero packed first maxSize

/-- `packed_to_padded_tensor_cpu.cpp:42-70` `PaddedToPackedCpu` (and `.cu:68-120` for permuted
copies): `padded` is the flat buffer, `num` the number of packed rows. -/
def paddedToPackedWith (ps : List (Nat × Nat)) (zero : α) (padded : List α) (num : Nat) :
    Option (List α) :=
  copyAll (List.replicate num zero) padded (ps.map Prod.swap)

/-- CPU program order. -/
def paddedToPacked (zero : α) (padded : List α) (first : List Nat) (maxSize num : Nat) :=
  paddedToPackedWith (pairs first num maxSize) zero padded num

end P3D.PackedPadded
