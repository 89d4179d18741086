/-
Model of `sample_pdf` (`pytorch3d/renderer/implicit/sample_pdf.py`,
`pytorch3d/csrc/sample_pdf/sample_pdf_cpu.cpp`, `sample_pdf.cu`).

Simplifications.  Numbers are elements of an ordered field (rounding not modelled); the quantiles
are given (random or `linspace`), they are what the output buffer holds on entry.  `n_bins ≥ 1`
(`weights.min()` raises on an empty tensor).
-/
import Verif.Chunks
import Mathlib.Algebra.Order.Field.Basic
import Mathlib.Algebra.BigOperators.Group.Finset.Basic
import Mathlib.Data.Multiset.Bind

namespace P3D.SamplePdf
open P3D.Chunks

variable {R : Type*} [Field R] [LinearOrder R]

/-- One batch element: `n` bins, weights `w 0 .. w (n-1)`, edges `b 0 .. b n`. -/
structure Row (R : Type*) where
  n : Nat
  w : Nat → R
  b : Nat → R

/-- `sample_pdf_cpu.cpp:51-57`: running total and the vector of partial sums. -/
def accumulate (r : Row R) : R × List R :=
  (List.range r.n).foldl (fun s i => (s.1 + r.w i, s.2 ++ [s.1 + r.w i])) (0, [])

/-- `std::lower_bound` on positions `[first, first + len)` of `a` (the halving algorithm of
libstdc++). -/
def lowerBound (a : Nat → R) (x : R) (first len : Nat) : Nat :=
  if h : len = 0 then first
  else
    if a (first + len / 2) < x then lowerBound a x (first + len / 2 + 1) (len - len / 2 - 1)
    else lowerBound a x first (len / 2)
termination_by len
decreasing_by all_goals omega

/-- `sample_pdf_cpu.cpp:87-96` (= `sample_pdf.cu:96-105`): interpolate inside the chosen bin. -/
def finish (r : Row R) (eps : R) (i : Nat) (uniform : R) : R :=
  if uniform > r.w i then r.b (i + 1)
  else if r.w i > eps then r.b i + uniform / r.w i * (r.b (i + 1) - r.b i)
  else r.b i

/-- One sample on the CPU, binary search, `sample_pdf_cpu.cpp:51-98`; `u` is the quantile. -/
def sampleCpu (r : Row R) (eps u : R) : R :=
  let acc := accumulate r
  let uniform := (acc.1 + eps) * u
  let ps := fun i => acc.2.getD i 0
  let i := lowerBound ps uniform 0 (r.n - 1)
  finish r eps i (if i > 0 then uniform - ps (i - 1) else uniform)

/-- Linear scan, `sample_pdf.cu:90-94` (and the other branch of `#ifdef USE_BINARY_SEARCH`). -/
def scan (r : Row R) (i : Nat) (uniform : R) : Nat × R :=
  if i + 1 < r.n ∧ uniform > r.w i then scan r (i + 1) (uniform - r.w i) else (i, uniform)
termination_by r.n - i

/-- One sample on the GPU, `sample_pdf.cu:66-106`: the total starts from `eps`. -/
def sampleCuda (r : Row R) (eps u : R) : R :=
  let total := (List.range r.n).foldl (fun t i => t + r.w i) eps
  let s := scan r 0 (total * u)
  finish r eps s.1 s.2

/-! ### Work distribution -/

/-- Rows `[start, end)` handed to one worker (`sample_pdf_cpu.cpp:45-46`). -/
def rowsFrom (s e : Nat) : List Nat := (List.range (e - s)).map (s + ·)

/-- `SamplePdfCpu`, `sample_pdf_cpu.cpp:109-137`: the rows processed by each of the threads;
`numThreads` is `at::get_num_threads()`, at least 1. -/
def threadRows (numThreads batch : Nat) : List (List Nat) :=
  if batch = 0 then []
  else
    let n := min (min 4 numThreads) batch
    let per := 1 + (batch - 1) / n
    ((List.range (n - 1)).map fun t => rowsFrom (t * per) (t * per + per))
      ++ [rowsFrom ((n - 1) * per) batch]

/-- A worker overwrites one row of the buffer in place (quantiles in, samples out); a row outside
the buffer is an out-of-bounds access (`none`). -/
def processRow (f : Nat → List R → List R) (buf : List (List R)) (row : Nat) :
    Option (List (List R)) :=
  match buf[row]? with
  | none => none
  | some us => some (buf.set row (f row us))

/-- The rows processed in some order. -/
def processRows (f : Nat → List R → List R) (buf : List (List R)) (rows : List Nat) :
    Option (List (List R)) := rows.foldlM (processRow f) buf

/-- `SamplePdfCuda` / `SamplePdfCudaKernel`, `sample_pdf.cu:53-82`: (batch element, sample) pairs
visited by all threads for `grid` blocks of `bd` threads making `T` samples each per chunk. -/
def visitedCuda (grid bd T batch nSamples : Nat) : List (Nat × Nat) :=
  let cpb := 1 + (nSamples - 1) / (T * bd)
  (List.range grid).flatMap fun blk => (List.range bd).flatMap fun tx =>
    (strideLoop blk grid (cpb * batch)).flatMap fun c => (List.range T).filterMap fun t =>
      let s := c % cpb * (T * bd) + (tx + t * bd)
      if s ≥ nSamples then none else some (c / cpb, s)

/-! ### The Python implementation -/

/-- `sample_pdf_python`, `sample_pdf.py:103-148`, one row and one quantile.  `torch.searchsorted`
with `right=True` returns the number of entries `≤ u` of the (sorted) cdf. -/
def samplePython (r : Row R) (eps u : R) : R :=
  let w := fun i => r.w i + eps
  let total := ((List.range r.n).map w).sum
  let cdf := fun i => ((List.range i).map fun k => w k / total).sum
  let inds := ((List.range (r.n + 1)).filter fun i => decide (cdf i ≤ u)).length
  let below := inds - 1
  let above := min inds r.n
  let denom := if cdf above - cdf below < eps then 1 else cdf above - cdf below
  let t := (u - cdf below) / denom
  r.b below + t * (r.b above - r.b below)

end P3D.SamplePdf
