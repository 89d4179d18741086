/-
Model of the raymarchers.

* `pytorch3d/renderer/implicit/raymarching.py` 66-122 (EmissionAbsorptionRaymarcher.forward),
  142-174 (AbsorptionOnlyRaymarcher.forward), 177-187 (_shifted_cumprod), 190-202
  (_check_density_bounds).

One ray: a list of densities and, per point, one feature channel.  Densities outside [0,1] only
produce a warning in the code, so no restriction is built in.  Not modelled: the shape checks of
`_check_raymarcher_inputs`, float rounding, autograd.
-/
import Mathlib.Algebra.BigOperators.Group.List.Basic
import Mathlib.Algebra.Field.Basic

namespace P3D.Raymarching

variable {R : Type*} [Field R]

/-- Exceptions of the torch operations used here. -/
inductive Err | emptyReduction | broadcast
  deriving DecidableEq, Repr

/-- Python `x[:k]` for any integer `k`. -/
def prefixSlice {α : Type*} (l : List α) (k : Int) : List α :=
  if k < 0 then l.take (l.length - k.natAbs) else l.take k.toNat

/-- `torch.cumprod(x, dim=-1)`: running product. -/
def cumprodFrom (acc : R) : List R → List R
  | [] => []
  | x :: xs => (acc * x) :: cumprodFrom (acc * x) xs

def cumprod (l : List R) : List R := cumprodFrom 1 l

/-- `_shifted_cumprod`, raymarching.py 177-187. -/
def shiftedCumprod (l : List R) (shift : Int) : List R :=
  (prefixSlice (cumprod l) shift).map (fun _ => 1) ++ prefixSlice (cumprod l) (-shift)

/-- One-dimensional broadcasting product `a * b` of torch tensors. -/
def bmul (a b : List R) : Except Err (List R) :=
  if a.length = b.length then .ok (List.zipWith (· * ·) a b)
  else match a, b with
    | [x], b => .ok (b.map (x * ·))
    | a, [y] => .ok (a.map (· * y))
    | _, _ => .error .broadcast

/-- The weights computed at raymarching.py 113-116. -/
def eaWeights (shift : Int) (eps : R) (d : List R) : Except Err (List R) :=
  bmul d (shiftedCumprod (d.map fun x => (1 + eps) - x) shift)

/-- `opacities = 1.0 - torch.prod(1.0 - rays_densities)`, raymarching.py 118 and 172-173. -/
def opacity (d : List R) : R := 1 - (d.map fun x => 1 - x).prod

/-- `EmissionAbsorptionRaymarcher.forward` for one ray and one feature channel, raymarching.py
66-122; `_check_density_bounds` takes the maximum of the densities, which raises on an empty ray. -/
def eaForward (shift : Int) (eps : R) (d f : List R) : Except Err (R × R) := do
  if d.isEmpty then .error .emptyReduction else
  let w ← eaWeights shift eps d
  let wf ← bmul w f
  return (wf.sum, opacity d)

/-- `AbsorptionOnlyRaymarcher.forward`, raymarching.py 142-174. -/
def aoForward (d : List R) : Except Err R :=
  if d.isEmpty then .error .emptyReduction else .ok (opacity d)

end P3D.Raymarching
