/-
Model of `pytorch3d/transforms/rotation_conversions.py`.

One batch element at a time (all functions act elementwise on the leading dimensions; the exception,
`matrix_to_axis_angle(fast=True)`, is modelled on batches).  Numbers: a field (quaternion algebra) or
the reals (square roots, trigonometry); rounding, NaN and dtype conversions are not modelled.  A
division by zero gives NaN or inf in the code and 0 in Lean, so theorems carry the hypothesis that the
denominators are not zero.
-/
import Verif.Mat3
import Mathlib.Analysis.SpecialFunctions.Trigonometric.Inverse
import Mathlib.Analysis.SpecialFunctions.Complex.Arg
import Mathlib.Analysis.SpecialFunctions.Trigonometric.Sinc

namespace P3D.Rot

/-- A quaternion, real part first. -/
@[ext]
structure Q (R : Type*) where
  r : R
  i : R
  j : R
  k : R
  deriving DecidableEq, Repr

section Algebra
variable {R : Type*} [Field R]

instance : Neg (Q R) := ⟨fun q => ⟨-q.r, -q.i, -q.j, -q.k⟩⟩
instance : SMul R (Q R) := ⟨fun c q => ⟨c * q.r, c * q.i, c * q.j, c * q.k⟩⟩

/-- `(quaternions * quaternions).sum(-1)`, line 55. -/
def Q.normSq (q : Q R) : R := q.r * q.r + q.i * q.i + q.j * q.j + q.k * q.k

/-- The imaginary part `quaternions[..., 1:]`. -/
def Q.im (q : Q R) : V3 R := ⟨q.i, q.j, q.k⟩

/-- `quaternion_to_matrix`, lines 43-71. -/
def quatToMat (q : Q R) : M3 R :=
  let twoS := 2 / q.normSq
  ⟨1 - twoS * (q.j * q.j + q.k * q.k), twoS * (q.i * q.j - q.k * q.r), twoS * (q.i * q.k + q.j * q.r),
   twoS * (q.i * q.j + q.k * q.r), 1 - twoS * (q.i * q.i + q.k * q.k), twoS * (q.j * q.k - q.i * q.r),
   twoS * (q.i * q.k - q.j * q.r), twoS * (q.j * q.k + q.i * q.r), 1 - twoS * (q.i * q.i + q.j * q.j)⟩

/-- `quaternion_raw_multiply`, lines 385-403. -/
def rawMul (a b : Q R) : Q R :=
  ⟨a.r * b.r - a.i * b.i - a.j * b.j - a.k * b.k, a.r * b.i + a.i * b.r + a.j * b.k - a.k * b.j,
   a.r * b.j - a.i * b.k + a.j * b.r + a.k * b.i, a.r * b.k + a.i * b.j - a.j * b.i + a.k * b.r⟩

/-- `quaternion_invert`, lines 423-437. -/
def invert (q : Q R) : Q R := ⟨q.r * 1, q.i * -1, q.j * -1, q.k * -1⟩

/-- `quaternion_apply`, lines 440-460. -/
def apply (q : Q R) (p : V3 R) : V3 R := (rawMul (rawMul q ⟨0, p.x, p.y, p.z⟩) (invert q)).im

variable [LinearOrder R]

/-- `standardize_quaternion`, lines 370-382. -/
def standardize (q : Q R) : Q R := if q.r < 0 then -q else q

/-- `quaternion_multiply`, lines 406-420. -/
def multiply (a b : Q R) : Q R := standardize (rawMul a b)

/-- `_copysign`, lines 74-89. -/
def copysign (a b : R) : R := if decide (a < 0) ≠ decide (b < 0) then -a else a

end Algebra

noncomputable section Reals

/-- `_sqrt_positive_part`, lines 92-99. -/
def sqrtPos (x : ℝ) : ℝ := if x > 0 then Real.sqrt x else 0

/-- Arguments of the four square roots, lines 121-128. -/
def qArgs (m : M3 ℝ) : Fin 4 → ℝ
  | 0 => 1 + m.m00 + m.m11 + m.m22
  | 1 => 1 + m.m00 - m.m11 - m.m22
  | 2 => 1 - m.m00 + m.m11 - m.m22
  | 3 => 1 - m.m00 - m.m11 + m.m22

/-- `q_abs`, lines 120-130. -/
def qAbs (m : M3 ℝ) (n : Fin 4) : ℝ := sqrtPos (qArgs m n)

/-- `quat_by_rijk`, lines 133-149. -/
def quatBy (m : M3 ℝ) : Fin 4 → Q ℝ
  | 0 => ⟨qAbs m 0 ^ 2, m.m21 - m.m12, m.m02 - m.m20, m.m10 - m.m01⟩
  | 1 => ⟨m.m21 - m.m12, qAbs m 1 ^ 2, m.m10 + m.m01, m.m02 + m.m20⟩
  | 2 => ⟨m.m02 - m.m20, m.m10 + m.m01, qAbs m 2 ^ 2, m.m12 + m.m21⟩
  | 3 => ⟨m.m10 - m.m01, m.m20 + m.m02, m.m21 + m.m12, qAbs m 3 ^ 2⟩

/-- `quat_candidates`, lines 153-154. -/
def candidate (m : M3 ℝ) (n : Fin 4) : Q ℝ := (2 * max (qAbs m n) (1 / 10))⁻¹ • quatBy m n

/-- `torch.argmax` returns some index of a maximum (which one is not specified). -/
def IsArgmax (f : Fin 4 → ℝ) (n : Fin 4) : Prop := ∀ k, f k ≤ f n

/-- Result of `matrix_to_quaternion`, lines 102-162, when `argmax` returns `n`. -/
def matToQuatAt (m : M3 ℝ) (n : Fin 4) : Q ℝ := standardize (candidate m n)

/-- First maximum: one possible `argmax`. -/
def argmax4 (f : Fin 4 → ℝ) : Fin 4 :=
  if f 1 ≤ f 0 ∧ f 2 ≤ f 0 ∧ f 3 ≤ f 0 then 0
  else if f 2 ≤ f 1 ∧ f 3 ≤ f 1 then 1
  else if f 3 ≤ f 2 then 2 else 3

/-- `matrix_to_quaternion`, lines 102-162. -/
def matToQuat (m : M3 ℝ) : Q ℝ := matToQuatAt m (argmax4 (qAbs m))

/-- `random_quaternions`, lines 310-331, from the drawn normal numbers `o`. -/
def randomQuat (o : Q ℝ) : Q ℝ := (copysign (Real.sqrt o.normSq) o.r)⁻¹ • o

/-! Euler angles -/

inductive Axis | X | Y | Z deriving DecidableEq, Repr

/-- `_index_from_letter`, lines 257-264. -/
def Axis.index : Axis → Fin 3
  | .X => 0
  | .Y => 1
  | .Z => 2

/-- `_axis_angle_rotation`, lines 165-192. -/
def axisRot : Axis → ℝ → M3 ℝ
  | .X, t => ⟨1, 0, 0, 0, Real.cos t, -Real.sin t, 0, Real.sin t, Real.cos t⟩
  | .Y, t => ⟨Real.cos t, 0, Real.sin t, 0, 1, 0, -Real.sin t, 0, Real.cos t⟩
  | .Z, t => ⟨Real.cos t, -Real.sin t, 0, Real.sin t, Real.cos t, 0, 0, 0, 1⟩

inductive Err | value deriving DecidableEq, Repr

/-- The convention string: `Axis.parse` gives the letters of {"X", "Y", "Z"}. -/
def Axis.parse : Char → Option Axis
  | 'X' => some .X
  | 'Y' => some .Y
  | 'Z' => some .Z
  | _ => none

/-- Checks of the convention, lines 209-215, 278-284. -/
def convention (s : String) : Except Err (Axis × Axis × Axis) :=
  match s.toList with
  | [a, b, c] =>
    if b = a ∨ b = c then .error .value else
    match Axis.parse a, Axis.parse b, Axis.parse c with
    | some a, some b, some c => .ok (a, b, c)
    | _, _, _ => .error .value
  | _ => .error .value

/-- `euler_angles_to_matrix`, lines 195-221, for a checked convention. -/
def eulerToMat (cv : Axis × Axis × Axis) (e : V3 ℝ) : M3 ℝ :=
  axisRot cv.1 e.x * axisRot cv.2.1 e.y * axisRot cv.2.2 e.z

/-- Entry `(i, j)` of a matrix. -/
def entry (m : M3 ℝ) : Fin 3 → Fin 3 → ℝ
  | 0, 0 => m.m00
  | 0, 1 => m.m01
  | 0, 2 => m.m02
  | 1, 0 => m.m10
  | 1, 1 => m.m11
  | 1, 2 => m.m12
  | 2, 0 => m.m20
  | 2, 1 => m.m21
  | 2, 2 => m.m22

/-- `torch.atan2(y, x)`. -/
def atan2 (y x : ℝ) : ℝ := Complex.arg ⟨x, y⟩

/-- `(i1, i2)` of lines 246-248. -/
def tanIdx : Axis → Fin 3 × Fin 3
  | .X => (2, 1)
  | .Y => (0, 2)
  | .Z => (1, 0)

/-- `even`, line 249. -/
def even : Axis → Axis → Bool
  | .X, .Y => true
  | .Y, .Z => true
  | .Z, .X => true
  | _, _ => false

/-- `_angle_from_tan`, lines 224-254. -/
def angleFromTan (axis other : Axis) (data : Fin 3 → ℝ) (horizontal tb : Bool) : ℝ :=
  let i1 := if horizontal then (tanIdx axis).2 else (tanIdx axis).1
  let i2 := if horizontal then (tanIdx axis).1 else (tanIdx axis).2
  if horizontal = even axis other then atan2 (data i1) (data i2)
  else if tb then atan2 (-data i2) (data i1)
  else atan2 (data i2) (-data i1)

/-- `torch.clamp(x, -1.0, 1.0)`. -/
def clamp1 (x : ℝ) : ℝ := min (max x (-1)) 1

/-- `matrix_to_euler_angles`, lines 267-307, for a checked convention. -/
def matToEuler (cv : Axis × Axis × Axis) (m : M3 ℝ) : V3 ℝ :=
  let i0 := cv.1.index
  let i2 := cv.2.2.index
  let tb := decide (i0 ≠ i2)
  let d : Int := (i0.val : Int) - i2.val
  let central := if tb then
      Real.arcsin (clamp1 (entry m i0 i2) * (if d = -1 ∨ d = 2 then -1 else 1))
    else Real.arccos (clamp1 (entry m i0 i0))
  ⟨angleFromTan cv.1 cv.2.1 (fun r => entry m r i2) false tb, central,
   angleFromTan cv.2.2 cv.2.1 (fun c => entry m i0 c) true tb⟩

/-! Axis-angle -/

/-- Euclidean length. -/
def norm (v : V3 ℝ) : ℝ := Real.sqrt (V3.normSq v)

/-- `torch.sinc(x / torch.pi)`, i.e. `sin x / x`, and 1 at 0. -/
def sinc (x : ℝ) : ℝ := Real.sinc x

/-- `axis_angle_to_quaternion`, lines 559-576. -/
def axisAngleToQuat (v : V3 ℝ) : Q ℝ :=
  let a := norm v
  let s := 1 / 2 * sinc (a * (1 / 2))
  ⟨Real.cos (a * (1 / 2)), v.x * s, v.y * s, v.z * s⟩

/-- `quaternion_to_axis_angle`, lines 579-598. -/
def quatToAxisAngle (q : Q ℝ) : V3 ℝ :=
  let half := atan2 (norm q.im) q.r
  (1 / 2 * sinc half)⁻¹ • q.im

/-- `axis_angle_to_matrix(.., fast=False)`, lines 479-480. -/
def axisAngleToMat (v : V3 ℝ) : M3 ℝ := quatToMat (axisAngleToQuat v)

/-- `axis_angle_to_matrix(.., fast=True)`, lines 482-501. -/
def axisAngleToMatFast (v : V3 ℝ) : M3 ℝ :=
  let a := norm v
  let K := M3.skew v
  let a2 := if a * a = 0 then 1 else a * a
  (1 : M3 ℝ) + sinc a • K + ((1 - Real.cos a) / a2) • (K * K)

/-- `matrix_to_axis_angle(.., fast=False)`, lines 521-522. -/
def matToAxisAngle (m : M3 ℝ) : V3 ℝ := quatToAxisAngle (matToQuat m)

/-- `torch.isclose(a, b)` with the default tolerances. -/
def IsClose (a b : ℝ) : Prop := |a - b| ≤ 1 / 10 ^ 8 + 1 / 10 ^ 5 * |b|

/-- `omegas`, lines 527-534. -/
def omega (m : M3 ℝ) : V3 ℝ := ⟨m.m21 - m.m12, m.m02 - m.m20, m.m10 - m.m01⟩

/-- `angles`, lines 535-537. -/
def fastAngle (m : M3 ℝ) : ℝ := atan2 (norm (omega m)) (m.trace - 1)

/-- `n` of one matrix, lines 550-553. -/
def fastN (m : M3 ℝ) : V3 ℝ := (1 / 2 : ℝ) • (⟨m.m00 + 1, m.m01, m.m02⟩ : V3 ℝ)

open Classical in
/-- `matrix_to_axis_angle(.., fast=True)`, lines 524-556, on a batch: `torch.norm(n)` (line 554) is the
norm of the whole `(k, 3)` tensor of the matrices with an angle near pi. -/
def matToAxisAngleFast (ms : List (M3 ℝ)) : List (V3 ℝ) :=
  let total := Real.sqrt (((ms.filter fun m => IsClose (fastAngle m) Real.pi).map
    fun m => V3.normSq (fastN m)).sum)
  ms.map fun m =>
    if IsClose (fastAngle m) Real.pi then total⁻¹ • (fastAngle m • fastN m)
    else (sinc (fastAngle m))⁻¹ •
      ((1 / 2 : ℝ) • if IsClose (fastAngle m) 0 then (0 : V3 ℝ) else omega m)

/-! 6D representation -/

/-- `F.normalize(v, dim=-1)`: divide by `max(‖v‖, 1e-12)`. -/
def normalize (v : V3 ℝ) : V3 ℝ := (max (norm v) (1 / 10 ^ 12))⁻¹ • v

/-- `rotation_6d_to_matrix`, lines 601-622. -/
def rot6dToMat (a1 a2 : V3 ℝ) : M3 ℝ :=
  let b1 := normalize a1
  let b2 := normalize (a2 - V3.dot b1 a2 • b1)
  M3.ofRows b1 b2 (V3.cross b1 b2)

/-- `matrix_to_rotation_6d`, lines 625-641. -/
def matToRot6d (m : M3 ℝ) : V3 ℝ × V3 ℝ := (m.row0, m.row1)

end Reals

end P3D.Rot
