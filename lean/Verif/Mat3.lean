/-
3x3 matrices over a commutative ring, entry by entry, and rotation matrices.  This is the arithmetic
of `(…, 3, 3)` tensors under `@`, `transpose` and row/column access.
-/
import Verif.Vec3
import Mathlib.Tactic.Ring
import Mathlib.Tactic.LinearCombination

namespace P3D

@[ext]
structure M3 (R : Type*) where
  m00 : R
  m01 : R
  m02 : R
  m10 : R
  m11 : R
  m12 : R
  m20 : R
  m21 : R
  m22 : R
  deriving DecidableEq, Repr

namespace M3
variable {R : Type*}

section ops
variable [CommRing R]

instance : One (M3 R) := ⟨⟨1, 0, 0, 0, 1, 0, 0, 0, 1⟩⟩
instance : Zero (M3 R) := ⟨⟨0, 0, 0, 0, 0, 0, 0, 0, 0⟩⟩
instance : Add (M3 R) := ⟨fun a b => ⟨a.m00 + b.m00, a.m01 + b.m01, a.m02 + b.m02,
  a.m10 + b.m10, a.m11 + b.m11, a.m12 + b.m12, a.m20 + b.m20, a.m21 + b.m21, a.m22 + b.m22⟩⟩
instance : SMul R (M3 R) := ⟨fun c a => ⟨c * a.m00, c * a.m01, c * a.m02,
  c * a.m10, c * a.m11, c * a.m12, c * a.m20, c * a.m21, c * a.m22⟩⟩
/-- `a @ b`. -/
instance : Mul (M3 R) := ⟨fun a b => ⟨
  a.m00 * b.m00 + a.m01 * b.m10 + a.m02 * b.m20, a.m00 * b.m01 + a.m01 * b.m11 + a.m02 * b.m21,
  a.m00 * b.m02 + a.m01 * b.m12 + a.m02 * b.m22,
  a.m10 * b.m00 + a.m11 * b.m10 + a.m12 * b.m20, a.m10 * b.m01 + a.m11 * b.m11 + a.m12 * b.m21,
  a.m10 * b.m02 + a.m11 * b.m12 + a.m12 * b.m22,
  a.m20 * b.m00 + a.m21 * b.m10 + a.m22 * b.m20, a.m20 * b.m01 + a.m21 * b.m11 + a.m22 * b.m21,
  a.m20 * b.m02 + a.m21 * b.m12 + a.m22 * b.m22⟩⟩

/-- `a.transpose(-1, -2)`. -/
def transpose (a : M3 R) : M3 R := ⟨a.m00, a.m10, a.m20, a.m01, a.m11, a.m21, a.m02, a.m12, a.m22⟩

/-- Determinant. -/
def det (a : M3 R) : R :=
  a.m00 * (a.m11 * a.m22 - a.m12 * a.m21) - a.m01 * (a.m10 * a.m22 - a.m12 * a.m20)
    + a.m02 * (a.m10 * a.m21 - a.m11 * a.m20)

/-- Trace. -/
def trace (a : M3 R) : R := a.m00 + a.m11 + a.m22

/-- Adjugate. -/
def adj (a : M3 R) : M3 R := ⟨a.m11 * a.m22 - a.m12 * a.m21, a.m02 * a.m21 - a.m01 * a.m22,
  a.m01 * a.m12 - a.m02 * a.m11, a.m12 * a.m20 - a.m10 * a.m22, a.m00 * a.m22 - a.m02 * a.m20,
  a.m02 * a.m10 - a.m00 * a.m12, a.m10 * a.m21 - a.m11 * a.m20, a.m01 * a.m20 - a.m00 * a.m21,
  a.m00 * a.m11 - a.m01 * a.m10⟩

/-- `a @ v` for a column vector. -/
def mulVec (a : M3 R) (v : V3 R) : V3 R := ⟨a.m00 * v.x + a.m01 * v.y + a.m02 * v.z,
  a.m10 * v.x + a.m11 * v.y + a.m12 * v.z, a.m20 * v.x + a.m21 * v.y + a.m22 * v.z⟩

/-- `v @ a` for a row vector. -/
def vecMul (v : V3 R) (a : M3 R) : V3 R := ⟨v.x * a.m00 + v.y * a.m10 + v.z * a.m20,
  v.x * a.m01 + v.y * a.m11 + v.z * a.m21, v.x * a.m02 + v.y * a.m12 + v.z * a.m22⟩

/-- Rows. -/
def row0 (a : M3 R) : V3 R := ⟨a.m00, a.m01, a.m02⟩
def row1 (a : M3 R) : V3 R := ⟨a.m10, a.m11, a.m12⟩
def row2 (a : M3 R) : V3 R := ⟨a.m20, a.m21, a.m22⟩

/-- Matrix with given rows: `torch.stack((a, b, c), dim=-2)`. -/
def ofRows (a b c : V3 R) : M3 R := ⟨a.x, a.y, a.z, b.x, b.y, b.z, c.x, c.y, c.z⟩

/-- Cross-product matrix: `hat`, and the fast axis-angle path. -/
def skew (v : V3 R) : M3 R := ⟨0, -v.z, v.y, v.z, 0, -v.x, -v.y, v.x, 0⟩

@[simp] theorem one_def : (1 : M3 R) = ⟨1, 0, 0, 0, 1, 0, 0, 0, 1⟩ := rfl
theorem zero_def : (0 : M3 R) = ⟨0, 0, 0, 0, 0, 0, 0, 0, 0⟩ := rfl
theorem add_def (a b : M3 R) : a + b = ⟨a.m00 + b.m00, a.m01 + b.m01, a.m02 + b.m02,
  a.m10 + b.m10, a.m11 + b.m11, a.m12 + b.m12, a.m20 + b.m20, a.m21 + b.m21, a.m22 + b.m22⟩ := rfl
theorem smul_def (c : R) (a : M3 R) : c • a = ⟨c * a.m00, c * a.m01, c * a.m02,
  c * a.m10, c * a.m11, c * a.m12, c * a.m20, c * a.m21, c * a.m22⟩ := rfl
theorem mul_def (a b : M3 R) : a * b = ⟨
  a.m00 * b.m00 + a.m01 * b.m10 + a.m02 * b.m20, a.m00 * b.m01 + a.m01 * b.m11 + a.m02 * b.m21,
  a.m00 * b.m02 + a.m01 * b.m12 + a.m02 * b.m22,
  a.m10 * b.m00 + a.m11 * b.m10 + a.m12 * b.m20, a.m10 * b.m01 + a.m11 * b.m11 + a.m12 * b.m21,
  a.m10 * b.m02 + a.m11 * b.m12 + a.m12 * b.m22,
  a.m20 * b.m00 + a.m21 * b.m10 + a.m22 * b.m20, a.m20 * b.m01 + a.m21 * b.m11 + a.m22 * b.m21,
  a.m20 * b.m02 + a.m21 * b.m12 + a.m22 * b.m22⟩ := rfl

theorem mul_assoc' (a b c : M3 R) : a * b * c = a * (b * c) := by
  simp only [mul_def, M3.mk.injEq]
  refine ⟨?_, ?_, ?_, ?_, ?_, ?_, ?_, ?_, ?_⟩ <;> ring

theorem one_mul' (a : M3 R) : 1 * a = a := by
  ext <;> simp [mul_def]

theorem mul_one' (a : M3 R) : a * 1 = a := by
  ext <;> simp [mul_def]

instance : Monoid (M3 R) where
  mul_assoc := mul_assoc'
  one_mul := one_mul'
  mul_one := mul_one'

theorem transpose_mul (a b : M3 R) : (a * b).transpose = b.transpose * a.transpose := by
  simp only [mul_def, transpose, M3.mk.injEq]
  refine ⟨?_, ?_, ?_, ?_, ?_, ?_, ?_, ?_, ?_⟩ <;> ring

theorem transpose_transpose (a : M3 R) : a.transpose.transpose = a := rfl
@[simp] theorem transpose_one : (1 : M3 R).transpose = 1 := rfl

theorem det_mul (a b : M3 R) : (a * b).det = a.det * b.det := by
  simp only [mul_def, det]; ring

theorem det_transpose (a : M3 R) : a.transpose.det = a.det := by
  simp only [transpose, det]; ring

theorem det_one : (1 : M3 R).det = 1 := by simp [det]

theorem mul_adj (a : M3 R) : a * a.adj = a.det • (1 : M3 R) := by
  simp only [mul_def, adj, det, one_def, smul_def, M3.mk.injEq]
  refine ⟨?_, ?_, ?_, ?_, ?_, ?_, ?_, ?_, ?_⟩ <;> ring

theorem adj_mul (a : M3 R) : a.adj * a = a.det • (1 : M3 R) := by
  simp only [mul_def, adj, det, one_def, smul_def, M3.mk.injEq]
  refine ⟨?_, ?_, ?_, ?_, ?_, ?_, ?_, ?_, ?_⟩ <;> ring

theorem one_smul' (a : M3 R) : (1 : R) • a = a := by ext <;> simp [smul_def]

theorem mulVec_mul (a b : M3 R) (v : V3 R) : (a * b).mulVec v = a.mulVec (b.mulVec v) := by
  simp only [mul_def, mulVec, V3.mk.injEq]
  refine ⟨?_, ?_, ?_⟩ <;> ring

theorem vecMul_mul (a b : M3 R) (v : V3 R) : vecMul v (a * b) = vecMul (vecMul v a) b := by
  simp only [mul_def, vecMul, V3.mk.injEq]
  refine ⟨?_, ?_, ?_⟩ <;> ring

theorem mulVec_one (v : V3 R) : (1 : M3 R).mulVec v = v := by ext <;> simp [mulVec]
theorem vecMul_one (v : V3 R) : vecMul v (1 : M3 R) = v := by ext <;> simp [vecMul]

theorem mulVec_transpose (a : M3 R) (v : V3 R) : a.transpose.mulVec v = vecMul v a := by
  simp only [transpose, mulVec, vecMul, V3.mk.injEq]
  refine ⟨?_, ?_, ?_⟩ <;> ring

theorem skew_mulVec (v w : V3 R) : (skew v).mulVec w = V3.cross v w := by
  simp only [skew, mulVec, V3.cross, V3.mk.injEq]
  refine ⟨?_, ?_, ?_⟩ <;> ring

/-- Rotation matrix: orthogonal with determinant 1. -/
structure IsRot (a : M3 R) : Prop where
  orth : a * a.transpose = 1
  det : a.det = 1

theorem IsRot.one : IsRot (1 : M3 R) := ⟨by simp [mul_def, transpose], det_one⟩

theorem IsRot.mul {a b : M3 R} (ha : IsRot a) (hb : IsRot b) : IsRot (a * b) where
  orth := by
    rw [transpose_mul, mul_assoc, ← mul_assoc b, hb.orth, one_mul, ha.orth]
  det := by rw [det_mul, ha.det, hb.det, mul_one]

theorem IsRot.adj_eq {a : M3 R} (h : IsRot a) : a.adj = a.transpose := by
  have h1 : a.adj * a = 1 := by rw [adj_mul, h.det, one_smul']
  calc a.adj = a.adj * (a * a.transpose) := by rw [h.orth, mul_one]
    _ = a.transpose := by rw [← mul_assoc, h1, one_mul]

theorem IsRot.orth' {a : M3 R} (h : IsRot a) : a.transpose * a = 1 := by
  rw [← h.adj_eq, adj_mul, h.det, one_smul']

theorem IsRot.transpose {a : M3 R} (h : IsRot a) : IsRot a.transpose where
  orth := by rw [transpose_transpose]; exact h.orth'
  det := by rw [det_transpose, h.det]

/-- Rotations preserve inner products. -/
theorem IsRot.dot {a : M3 R} (h : IsRot a) (v w : V3 R) :
    V3.dot (a.mulVec v) (a.mulVec w) = V3.dot v w := by
  have h' := h.orth'
  simp only [mul_def, M3.transpose, one_def, M3.mk.injEq] at h'
  obtain ⟨h1, h2, h3, h4, h5, h6, h7, h8, h9⟩ := h'
  simp only [mulVec, V3.dot]
  linear_combination (v.x * w.x) * h1 + (v.x * w.y) * h2 + (v.x * w.z) * h3 + (v.y * w.x) * h4
    + (v.y * w.y) * h5 + (v.y * w.z) * h6 + (v.z * w.x) * h7 + (v.z * w.y) * h8 + (v.z * w.z) * h9

/-- All polynomial equations of a rotation matrix. -/
structure Eqs (a : M3 R) : Prop where
  r00 : a.m00 * a.m00 + a.m01 * a.m01 + a.m02 * a.m02 = 1
  r11 : a.m10 * a.m10 + a.m11 * a.m11 + a.m12 * a.m12 = 1
  r22 : a.m20 * a.m20 + a.m21 * a.m21 + a.m22 * a.m22 = 1
  r01 : a.m00 * a.m10 + a.m01 * a.m11 + a.m02 * a.m12 = 0
  r02 : a.m00 * a.m20 + a.m01 * a.m21 + a.m02 * a.m22 = 0
  r12 : a.m10 * a.m20 + a.m11 * a.m21 + a.m12 * a.m22 = 0
  c00 : a.m00 * a.m00 + a.m10 * a.m10 + a.m20 * a.m20 = 1
  c11 : a.m01 * a.m01 + a.m11 * a.m11 + a.m21 * a.m21 = 1
  c22 : a.m02 * a.m02 + a.m12 * a.m12 + a.m22 * a.m22 = 1
  c01 : a.m00 * a.m01 + a.m10 * a.m11 + a.m20 * a.m21 = 0
  c02 : a.m00 * a.m02 + a.m10 * a.m12 + a.m20 * a.m22 = 0
  c12 : a.m01 * a.m02 + a.m11 * a.m12 + a.m21 * a.m22 = 0
  a00 : a.m11 * a.m22 - a.m12 * a.m21 = a.m00
  a01 : a.m12 * a.m20 - a.m10 * a.m22 = a.m01
  a02 : a.m10 * a.m21 - a.m11 * a.m20 = a.m02
  a10 : a.m02 * a.m21 - a.m01 * a.m22 = a.m10
  a11 : a.m00 * a.m22 - a.m02 * a.m20 = a.m11
  a12 : a.m01 * a.m20 - a.m00 * a.m21 = a.m12
  a20 : a.m01 * a.m12 - a.m02 * a.m11 = a.m20
  a21 : a.m02 * a.m10 - a.m00 * a.m12 = a.m21
  a22 : a.m00 * a.m11 - a.m01 * a.m10 = a.m22

theorem IsRot.eqs {a : M3 R} (h : IsRot a) : Eqs a := by
  have h1 := h.orth
  have h2 := h.orth'
  have h3 := h.adj_eq
  simp only [mul_def, M3.transpose, one_def, adj, M3.mk.injEq] at h1 h2 h3
  obtain ⟨p1, p2, p3, p4, p5, p6, p7, p8, p9⟩ := h1
  obtain ⟨q1, q2, q3, q4, q5, q6, q7, q8, q9⟩ := h2
  obtain ⟨s1, s2, s3, s4, s5, s6, s7, s8, s9⟩ := h3
  constructor <;> assumption

end ops

end M3
end P3D
