/-
Model of the three point compositors, CPU and CUDA
(`pytorch3d/csrc/compositing/{alpha_composite,weighted_sum,norm_weighted_sum}{_cpu.cpp,.cu}`).

Simplifications.  Numbers are elements of a field (float rounding is not modelled).  Tensors are
functions of their index tuples together with sizes; the accessors' memory reads are not bounds
checked, so `features[c][n]` is a total function of `n ≥ 0`.  Each `+=` / `atomicAdd` into a result
tensor is recorded as one contribution `(index, value)`, in program order, and the tensor is the
accumulation of the contributions into zeros (`Scatter.scatterAdd`).
-/
import Verif.Scatter
import Verif.Chunks
import Mathlib.Algebra.Field.Basic
import Mathlib.Algebra.Order.Field.Basic

namespace P3D.Compositing
open P3D.Scatter P3D.Chunks

variable {R : Type*} [Field R]

/-- Index of a `(B, X, H, W)` tensor. -/
abbrev Ix := Nat × Nat × Nat × Nat

/-- Arguments of the forward functions and their sizes (`alpha_composite_cpu.cpp:17-26`):
`features` (C, P), `alphas` (B, K, H, W), `points_idx` (B, K, H, W). -/
structure In (R : Type*) where
  B : Nat
  K : Nat
  H : Nat
  W : Nat
  C : Nat
  features : Nat × Nat → R
  alphas : Ix → R
  pidx : Ix → Int

/-- What one pixel and one channel see: the `K` indices, the `K` weights and the feature row. -/
structure Px (R : Type*) where
  K : Nat
  idx : Nat → Int
  al : Nat → R
  f : Nat → R

/-- The pixel `(b, c, j, i)` of the inputs. -/
def In.px (x : In R) (p : Ix) : Px R where
  K := x.K
  idx := fun k => x.pidx (p.1, k, p.2.2.1, p.2.2.2)
  al := fun k => x.alphas (p.1, k, p.2.2.1, p.2.2.2)
  f := fun n => x.features (p.2.1, n)

/-- The loop nest `for b, for c, for j, for i` of every CPU function
(`alpha_composite_cpu.cpp:35-41`). -/
def pixels (B C H W : Nat) : List Ix :=
  (List.range B).flatMap fun b => (List.range C).flatMap fun c =>
    (List.range H).flatMap fun j => (List.range W).map fun i => (b, c, j, i)

/-- All (pixel, channel) pairs visited by the CUDA kernels (`alpha_composite.cu:35-46`): block
`(batch, by)` with `gy` blocks in `y` and `bs` threads, `pid` strided by `gridDim.y * blockDim.x`,
decoded as `ch = pid / (H*W)`, `j = pid % (H*W) / W`, `i = pid % (H*W) % W`.
The backward kernel of `norm_weighted_sum.cu:101` computes the same `num_pixels` as `C*W*H`. -/
def pixelsCuda (gy bs B C H W : Nat) : List Ix :=
  (List.range B).flatMap fun batch => (gridStride gy bs (C * H * W)).map fun pid =>
    (batch, pid / (H * W), pid % (H * W) / W, pid % (H * W) % W)

/-! ### Per-pixel loops -/

/-- Loop body of the forward pass, `alpha_composite_cpu.cpp:44-53`; state: values added to the
result so far, `cum_alpha`. -/
def acStep (p : Px R) (s : List R × R) (k : Nat) : List R × R :=
  if p.idx k < 0 then s
  else (s.1 ++ [s.2 * p.al k * p.f (p.idx k).toNat], s.2 * (1 - p.al k))

/-- `alpha_composite_cpu.cpp:42-53`. -/
def acForward (p : Px R) : List R := ((List.range p.K).foldl (acStep p) ([], 1)).1

/-- Loop body of `alpha_composite.cu:51-66`: the product is associated differently. -/
def acStepCuda (p : Px R) (s : List R × R) (k : Nat) : List R × R :=
  if p.idx k < 0 then s
  else (s.1 ++ [p.f (p.idx k).toNat * s.2 * p.al k], s.2 * (1 - p.al k))

/-- `alpha_composite.cu:49-66`. -/
def acForwardCuda (p : Px R) : List R := ((List.range p.K).foldl (acStepCuda p) ([], 1)).1

/-- State of the backward loop: contributions to `grad_alphas` (slot, value), contributions to
`grad_features` (point, value), `cum_alpha`. -/
structure Back (R : Type*) where
  ga : List (Nat × R)
  gf : List (Nat × R)
  cum : R

/-- Loop body of the backward pass, `alpha_composite_cpu.cpp:92-118`; `g` is
`grad_outputs[b][c][j][i]`, `eps` is `kEps`. -/
def acBackStep (eps g : R) (p : Px R) (s : Back R) (k : Nat) : Back R :=
  if p.idx k < 0 then s
  else
    { ga := s.ga ++ [(k, g * p.f (p.idx k).toNat * s.cum)] ++
        (List.range k).filterMap fun t =>
          if p.idx t < 0 then none
          else some (t, -(g * p.f (p.idx k).toNat * s.cum * p.al k / (1 - p.al t + eps)))
      gf := s.gf ++ [((p.idx k).toNat, g * s.cum * p.al k)]
      cum := s.cum * (1 - p.al k) }

/-- `alpha_composite_cpu.cpp:90-119`. -/
def acBackward (eps g : R) (p : Px R) : Back R :=
  (List.range p.K).foldl (acBackStep eps g p) ⟨[], [], 1⟩

/-- Loop body of `alpha_composite.cu:100-138`. -/
def acBackStepCuda (eps g : R) (p : Px R) (s : Back R) (k : Nat) : Back R :=
  if p.idx k < 0 then s
  else
    { ga := s.ga ++ [(k, s.cum * p.f (p.idx k).toNat * g)] ++
        (List.range k).filterMap fun t =>
          if p.idx t < 0 then none
          else some (t, -g * p.f (p.idx k).toNat * s.cum * p.al k / (1 - p.al t + eps))
      gf := s.gf ++ [((p.idx k).toNat, s.cum * p.al k * g)]
      cum := s.cum * (1 - p.al k) }

def acBackwardCuda (eps g : R) (p : Px R) : Back R :=
  (List.range p.K).foldl (acBackStepCuda eps g p) ⟨[], [], 1⟩

/-- `weighted_sum_cpu.cpp:40-49`. -/
def wsForward (p : Px R) : List R :=
  (List.range p.K).filterMap fun k =>
    if p.idx k < 0 then none else some (p.al k * p.f (p.idx k).toNat)

/-- `weighted_sum.cu:48-62`. -/
def wsForwardCuda (p : Px R) : List R :=
  (List.range p.K).filterMap fun k =>
    if p.idx k < 0 then none else some (p.f (p.idx k).toNat * p.al k)

/-- `weighted_sum_cpu.cpp:87-98`. -/
def wsBackward (g : R) (p : Px R) : Back R where
  ga := (List.range p.K).filterMap fun k =>
    if p.idx k < 0 then none else some (k, g * p.f (p.idx k).toNat)
  gf := (List.range p.K).filterMap fun k =>
    if p.idx k < 0 then none else some ((p.idx k).toNat, g * p.al k)
  cum := 1

/-- `weighted_sum.cu:95-112`. -/
def wsBackwardCuda (g : R) (p : Px R) : Back R where
  ga := (List.range p.K).filterMap fun k =>
    if p.idx k < 0 then none else some (k, p.f (p.idx k).toNat * g)
  gf := (List.range p.K).filterMap fun k =>
    if p.idx k < 0 then none else some ((p.idx k).toNat, p.al k * g)
  cum := 1

section Norm
variable [LinearOrder R]

/-- First loop of the normalised sum, `norm_weighted_sum_cpu.cpp:42-54`: the total weight, raised
to `kEps` if it is smaller. -/
def totalAlpha (eps : R) (p : Px R) : R :=
  let t := (List.range p.K).foldl (fun t k => if p.idx k < 0 then t else t + p.al k) 0
  if t < eps then eps else t

/-- `norm_weighted_sum_cpu.cpp:57-65`. -/
def nwForward (eps : R) (p : Px R) : List R :=
  (List.range p.K).filterMap fun k =>
    if p.idx k < 0 then none else some (p.al k * p.f (p.idx k).toNat / totalAlpha eps p)

/-- `norm_weighted_sum.cu:50-80`. -/
def nwForwardCuda (eps : R) (p : Px R) : List R :=
  (List.range p.K).filterMap fun k =>
    if p.idx k < 0 then none else some (p.f (p.idx k).toNat * p.al k / totalAlpha eps p)

/-- `t_alphafs`, `norm_weighted_sum_cpu.cpp:103-114`. -/
def totalAlphaFs (p : Px R) : R :=
  (List.range p.K).foldl
    (fun t k => if p.idx k < 0 then t else t + p.al k * p.f (p.idx k).toNat) 0

/-- `norm_weighted_sum_cpu.cpp:102-135`. -/
def nwBackward (eps g : R) (p : Px R) : Back R where
  ga := (List.range p.K).filterMap fun k =>
    if p.idx k < 0 then none
    else some (k, g * (p.f (p.idx k).toNat * totalAlpha eps p - totalAlphaFs p)
      / (totalAlpha eps p * totalAlpha eps p))
  gf := (List.range p.K).filterMap fun k =>
    if p.idx k < 0 then none else some ((p.idx k).toNat, g * p.al k / totalAlpha eps p)
  cum := 1

/-- `norm_weighted_sum.cu:112-153`. -/
def nwBackwardCuda (eps g : R) (p : Px R) : Back R where
  ga := (List.range p.K).filterMap fun k =>
    if p.idx k < 0 then none
    else some (k, (p.f (p.idx k).toNat * totalAlpha eps p - totalAlphaFs p)
      / (totalAlpha eps p * totalAlpha eps p) * g)
  gf := (List.range p.K).filterMap fun k =>
    if p.idx k < 0 then none else some ((p.idx k).toNat, p.al k * g / totalAlpha eps p)
  cum := 1

end Norm

/-! ### Whole tensors -/

/-- Contributions to `result` (B, C, H, W), for the (pixel, channel) pairs in the order `ps`. -/
def fwdContribs (F : Px R → List R) (ps : List Ix) (x : In R) : List (Ix × R) :=
  ps.flatMap fun p => (F (x.px p)).map fun v => (p, v)

/-- Contributions to `grad_alphas` (B, K, H, W). -/
def gaContribs (G : R → Px R → Back R) (ps : List Ix) (x : In R) (gout : Ix → R) :
    List (Ix × R) :=
  ps.flatMap fun p => (G (gout p) (x.px p)).ga.map fun c =>
    ((p.1, c.1, p.2.2.1, p.2.2.2), c.2)

/-- Contributions to `grad_features` (C, P). -/
def gfContribs (G : R → Px R → Back R) (ps : List Ix) (x : In R) (gout : Ix → R) :
    List ((Nat × Nat) × R) :=
  ps.flatMap fun p => (G (gout p) (x.px p)).gf.map fun c => ((p.2.1, c.1), c.2)

/-- A CPU forward function (`alphaCompositeCpuForward` etc.). -/
def cpuForward (F : Px R → List R) (x : In R) : Ix → R :=
  scatterAdd (fwdContribs F (pixels x.B x.C x.H x.W) x)

/-- A CPU backward function: (grad_features, grad_alphas). -/
def cpuBackward (G : R → Px R → Back R) (x : In R) (gout : Ix → R) :
    (Nat × Nat → R) × (Ix → R) :=
  (scatterAdd (gfContribs G (pixels x.B x.C x.H x.W) x gout),
   scatterAdd (gaContribs G (pixels x.B x.C x.H x.W) x gout))

end P3D.Compositing
