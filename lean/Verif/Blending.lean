/-
Model of the blending functions (`pytorch3d/renderer/blending.py`,
`pytorch3d/csrc/blending/sigmoid_alpha_blend{_cpu.cpp,.cu}`).

Simplifications.  Real numbers instead of floats.  `K ≥ 1` in `softmax_rgb_blend` (`torch.max`
over an empty dimension raises).  The three colour channels are treated one at a time.  `znear` and
`zfar` are the values for the pixel's batch element.
-/
import Verif.Store
import Verif.Chunks
import Mathlib.Analysis.SpecialFunctions.Exp
import Mathlib.Data.List.Range

namespace P3D.Blending
open P3D.Store P3D.Chunks

/-- Index of an (N, H, W) tensor / of an (N, H, W, K) tensor. -/
abbrev Ix3 := Nat × Nat × Nat
abbrev Ix4 := Nat × Nat × Nat × Nat

noncomputable section

/-- `prob`, `sigmoid_alpha_blend_cpu.cpp:44-47`: `dist = -1.0 * d; 1. / (1. + exp(-dist / sigma))`. -/
def prob (sigma d : ℝ) : ℝ := 1 / (1 + Real.exp (-(-1 * d) / sigma))

/-- Loop over the K faces of one pixel, `sigmoid_alpha_blend_cpu.cpp:33-56`. -/
def sigmoidPixel (sigma : ℝ) (K : Nat) (face : Nat → Int) (dist : Nat → ℝ) : ℝ :=
  1 - (List.range K).foldl
    (fun alpha k => if face k < 0 then alpha else alpha * (1 - prob sigma (dist k))) 1

/-- The tensors of `SigmoidAlphaBlend*`. -/
structure In where
  N : Nat
  H : Nat
  W : Nat
  K : Nat
  dist : Ix4 → ℝ
  face : Ix4 → Int

def In.pixel (x : In) (sigma : ℝ) (q : Ix3) : ℝ :=
  sigmoidPixel sigma x.K (fun k => x.face (q.1, q.2.1, q.2.2, k))
    (fun k => x.dist (q.1, q.2.1, q.2.2, k))

/-- `for n, for h, for w` (`sigmoid_alpha_blend_cpu.cpp:29-32`). -/
def pixels (N H W : Nat) : List Ix3 :=
  (List.range N).flatMap fun n => (List.range H).flatMap fun h => (List.range W).map fun w =>
    (n, h, w)

/-- `SigmoidAlphaBlendForwardCpu`, `sigmoid_alpha_blend_cpu.cpp:13-60`; `init` is the content of
the uninitialised output buffer (`torch::empty`). -/
def forwardCpu (x : In) (sigma : ℝ) (init : Ix3 → ℝ) : Ix3 → ℝ :=
  storeAll init ((pixels x.N x.H x.W).map fun q => (q, x.pixel sigma q))

/-- Pixels visited by `SigmoidAlphaBlendForwardKernel` (`sigmoid_alpha_blend.cu:29-42`). -/
def pixelsCuda (grid block N H W : Nat) : List Ix3 :=
  (gridStride grid block (N * H * W)).map fun t => (t / (H * W), t % (H * W) / W, t % (H * W) % W)

/-- `SigmoidAlphaBlendForwardCuda`: the stores, thread by thread. -/
def forwardCudaStores (grid block : Nat) (x : In) (sigma : ℝ) : List (Ix3 × ℝ) :=
  (pixelsCuda grid block x.N x.H x.W).map fun q => (q, x.pixel sigma q)

/-- One entry of `grad_distances`, `sigmoid_alpha_blend_cpu.cpp:91-124`. -/
def In.gradEntry (x : In) (sigma : ℝ) (gradAlpha alphas : Ix3 → ℝ) (q : Ix4) : ℝ :=
  gradAlpha (q.1, q.2.1, q.2.2.1) * (-1 / sigma) * prob sigma (x.dist q)
    * (1 - alphas (q.1, q.2.1, q.2.2.1))

/-- `SigmoidAlphaBlendBackwardCpu`, `sigmoid_alpha_blend_cpu.cpp:62-129`: stores into zeros. -/
def backwardCpu (x : In) (sigma : ℝ) (gradAlpha alphas : Ix3 → ℝ) : Ix4 → ℝ :=
  storeAll (fun _ => 0) ((pixels x.N x.H x.W).flatMap fun q =>
    (List.range x.K).filterMap fun k =>
      let q' : Ix4 := (q.1, q.2.1, q.2.2, k)
      if x.face q' < 0 then none else some (q', x.gradEntry sigma gradAlpha alphas q'))

/-- `SigmoidAlphaBlendBackwardKernel`, `sigmoid_alpha_blend.cu:117-161`: block `(n, by)`. -/
def backwardCudaStores (gy bs : Nat) (x : In) (sigma : ℝ) (gradAlpha alphas : Ix3 → ℝ) :
    List (Ix4 × ℝ) :=
  (List.range x.N).flatMap fun n => (gridStride gy bs (x.H * x.W * x.K)).filterMap fun t =>
    let q' : Ix4 := (n, t / (x.W * x.K), t % (x.W * x.K) / x.K, t % (x.W * x.K) % x.K)
    if x.face q' ≥ 0 then some (q', x.gradEntry sigma gradAlpha alphas q') else none

/-! ### softmax_rgb_blend (one pixel) -/

/-- What `softmax_rgb_blend` reads at one pixel. -/
structure Frag where
  K : Nat
  face : Nat → Int
  dist : Nat → ℝ
  zbuf : Nat → ℝ

structure Params where
  sigma : ℝ
  gamma : ℝ
  znear : ℝ
  zfar : ℝ
  eps : ℝ

/-- `torch.sigmoid`. -/
def sigmoid (x : ℝ) : ℝ := 1 / (1 + Real.exp (-x))

/-- `blending.py:199`. -/
def mask (f : Frag) (k : Nat) : ℝ := if f.face k ≥ 0 then 1 else 0

/-- `blending.py:202`. -/
def probMap (P : Params) (f : Frag) (k : Nat) : ℝ := sigmoid (-f.dist k / P.sigma) * mask f k

/-- `blending.py:208`. -/
def softAlpha (P : Params) (f : Frag) : ℝ := ((List.range f.K).map fun k => 1 - probMap P f k).prod

/-- `blending.py:223`. -/
def zInv (P : Params) (f : Frag) (k : Nat) : ℝ :=
  (P.zfar - f.zbuf k) / (P.zfar - P.znear) * mask f k

/-- `blending.py:225`: maximum over the K slots, clamped below by `eps`. -/
def zInvMax (P : Params) (f : Frag) : ℝ :=
  max ((List.range f.K).foldl (fun m k => max m (zInv P f k)) (zInv P f 0)) P.eps

/-- `blending.py:227`. -/
def weightsNum (P : Params) (f : Frag) (k : Nat) : ℝ :=
  probMap P f k * Real.exp ((zInv P f k - zInvMax P f) / P.gamma)

/-- `blending.py:232`. -/
def delta (P : Params) (f : Frag) : ℝ := max (Real.exp ((P.eps - zInvMax P f) / P.gamma)) P.eps

/-- `blending.py:236`. -/
def denom (P : Params) (f : Frag) : ℝ := ((List.range f.K).map (weightsNum P f)).sum + delta P f

/-- `softmax_rgb_blend`, `blending.py:239-242`, one colour channel and the alpha channel. -/
def softmaxBlend (P : Params) (f : Frag) (colors : Nat → ℝ) (background : ℝ) : ℝ × ℝ :=
  ((((List.range f.K).map fun k => weightsNum P f k * colors k).sum + delta P f * background)
    / denom P f, 1 - softAlpha P f)

end

/-! ### hard_rgb_blend -/

/-- `Tensor.masked_scatter` on flattened tensors: positions with a true mask take the elements of
`source` in order; running out of elements raises (`none`). -/
def maskedScatter {α : Type*} : List (Bool × α) → List α → Option (List α)
  | [], _ => some []
  | (false, v) :: rest, src => (maskedScatter rest src).map (v :: ·)
  | (true, _) :: _, [] => none
  | (true, _) :: rest, s :: src => (maskedScatter rest src).map (s :: ·)

/-- `hard_rgb_blend`, `blending.py:77-91`: `first` is `(pix_to_face[..., 0], colors[..., 0, :])`
for the pixels in row-major order; the result is the flattened RGB image and the alpha channel. -/
def hardBlend {α : Type*} [Zero α] [One α] (first : List (Int × List α)) (background : List α) :
    Option (List α × List α) :=
  let isBg := first.map fun q => decide (q.1 < 0)
  let num := isBg.count true
  (maskedScatter (first.flatMap fun q => q.2.map fun c => (decide (q.1 < 0), c))
    (List.replicate num background).flatten).map fun rgb =>
      (rgb, isBg.map fun b => if b then 0 else 1)

end P3D.Blending
