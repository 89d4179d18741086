/-
`transforms/so3.py`, `transforms/se3.py` and `transforms/math.py` over the real numbers.
4x4 matrices are Mathlib matrices.  The functions are given for one batch element where the code
treats the elements independently.
-/
import Verif.Rotations
import Mathlib.Data.Matrix.Mul
import Mathlib.LinearAlgebra.Matrix.Notation
import Mathlib.Analysis.SpecialFunctions.Trigonometric.Inverse

namespace P3D

/-- A `(4, 4)` tensor. -/
abbrev M4 (R : Type*) := Matrix (Fin 4) (Fin 4) R

namespace M4
variable {R : Type*} [CommRing R]

/-- `[A 0; t 1]`. -/
def affine (A : M3 R) (t : V3 R) : M4 R :=
  !![A.m00, A.m01, A.m02, 0; A.m10, A.m11, A.m12, 0; A.m20, A.m21, A.m22, 0; t.x, t.y, t.z, 1]

/-- `transform[:3, :3]`. -/
def linear (m : M4 R) : M3 R := ⟨m 0 0, m 0 1, m 0 2, m 1 0, m 1 1, m 1 2, m 2 0, m 2 1, m 2 2⟩

/-- `transform[3, :3]`. -/
def transl (m : M4 R) : V3 R := ⟨m 3 0, m 3 1, m 3 2⟩

/-- `transform[:3, 3]`. -/
def lastCol (m : M4 R) : V3 R := ⟨m 0 3, m 1 3, m 2 3⟩

end M4

namespace So3
open Rot

inductive Err | value | singular deriving DecidableEq, Repr

/-- `hat`, so3.py 229-271. -/
def hat {R : Type*} [CommRing R] (v : V3 R) : M3 R := ⟨0, -v.z, v.y, v.z, 0, -v.x, -v.y, v.x, 0⟩

section
variable {R : Type*} [Field R] [LinearOrder R]

/-- The nine entries of `h + h.permute(0, 2, 1)`, so3.py 212. -/
def symEntries (h : M3 R) : List R :=
  [h.m00 + h.m00, h.m01 + h.m10, h.m02 + h.m20, h.m10 + h.m01, h.m11 + h.m11, h.m12 + h.m21,
    h.m20 + h.m02, h.m21 + h.m12, h.m22 + h.m22]

/-- `hat_inv`, so3.py 191-226, for a batch (`max` over all entries of the batch at most 1e-5;
an empty batch makes `max` fail). -/
def hatInv (hs : List (M3 R)) : Except Err (List (V3 R)) :=
  if hs = [] then .error .value
  else if hs.any fun h => (symEntries h).any fun e => decide (|e| > 1 / 10 ^ 5) then .error .value
  else .ok (hs.map fun h => ⟨h.m21, h.m02, h.m10⟩)
end

noncomputable section

/-- `_dacos_dx`, math.py 83-87. -/
def dacos (x : ℝ) : ℝ := -1 / Real.sqrt (1 - x * x)

/-- `_acos_linear_approximation`, math.py 76-80. -/
def acosLin (x x0 : ℝ) : ℝ := (x - x0) * dacos x0 + Real.arccos x0

/-- `acos_linear_extrapolation`, math.py 18-73 (later assignments win). -/
def acosExtrap (x lo up : ℝ) : Except Err ℝ :=
  if lo > up then .error .value
  else if lo ≤ -1 ∨ up ≥ 1 then .error .value
  else .ok (if x ≤ lo then acosLin x lo else if x ≥ up then acosLin x up else Real.arccos x)

/-- `so3_rotation_angle`, so3.py 59-113 (`torch.acos` of a number outside [-1, 1] would be NaN). -/
def rotationAngle (m : M3 ℝ) (eps : ℝ) (cosAngle : Bool) (cosBound : ℝ) : Except Err ℝ :=
  let tr := m.m00 + m.m11 + m.m22
  if tr < -1 - eps ∨ tr > 3 + eps then .error .value
  else
    let c := (tr - 1) * (1 / 2)
    if cosAngle then .ok c
    else if cosBound > 0 then acosExtrap c (-(1 - cosBound)) (1 - cosBound)
    else .ok (Real.arccos c)

/-- `so3_relative_angle`, so3.py 18-56. -/
def relativeAngle (a b : M3 ℝ) (cosAngle : Bool) (cosBound eps : ℝ) : Except Err ℝ :=
  rotationAngle (a * b.transpose) eps cosAngle cosBound

/-- `so3_exp_map`, so3.py 116-163. -/
def exp (v : V3 ℝ) : M3 ℝ := axisAngleToMat v

/-- `so3_log_map`, so3.py 166-188. -/
def log (m : M3 ℝ) : V3 ℝ := matToAxisAngle m

/-- `torch.clamp(nrms, eps).sqrt()`, so3.py 157 and se3.py 205. -/
def clampAngle (eps : ℝ) (v : V3 ℝ) : ℝ := Real.sqrt (max (V3.normSq v) eps)

/-- `_se3_V_matrix`, se3.py 166-197. -/
def vMat (v : V3 ℝ) (phi : ℝ) : M3 ℝ :=
  1 + ((1 - Real.cos phi) / phi ^ 2) • hat v + ((phi - Real.sin phi) / phi ^ 3) • (hat v * hat v)

/-- `se3_exp_map`, se3.py 14-89, of `[t | v]`.  `transform` is filled with `R` and the column
`V @ t` and then transposed. -/
def se3Exp (eps : ℝ) (t v : V3 ℝ) : M4 ℝ :=
  M4.affine (exp v).transpose ((vMat v (clampAngle eps v)).mulVec t)

/-- `torch.linalg.solve(V, T)`. -/
def solve (V : M3 ℝ) (T : V3 ℝ) : Except Err (V3 ℝ) :=
  if V.det = 0 then .error .singular else .ok (V.det⁻¹ • V.adj.mulVec T)

/-- `torch.allclose(x, 0)`. -/
def close0 (v : V3 ℝ) : Prop := |v.x| ≤ 1 / 10 ^ 8 ∧ |v.y| ≤ 1 / 10 ^ 8 ∧ |v.z| ≤ 1 / 10 ^ 8

open Classical in
/-- `se3_log_map`, se3.py 92-163.  `_get_se3_V_input` (line 159) is called without `eps`, so the
threshold is always 1e-4. -/
def se3Log (_eps : ℝ) (m : M4 ℝ) : Except Err (V3 ℝ × V3 ℝ) :=
  if ¬ close0 (M4.lastCol m) then .error .value
  else
    let v := log (M4.linear m).transpose
    let V := vMat v (clampAngle (1 / 10 ^ 4) v)
    (solve V (M4.transl m)).map fun t => (t, v)

end

end So3
end P3D
