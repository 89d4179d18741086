/-
Three-vectors over a commutative ring: the arithmetic used on points, normals and colours
throughout the C++ and Python code (`csrc/utils/vec3.h`, rows of `(…, 3)` tensors).
-/
import Mathlib.Algebra.Ring.Defs
import Mathlib.Algebra.Module.Basic
import Mathlib.Tactic.Ring
import Mathlib.Tactic.LinearCombination

namespace P3D

/-- `csrc/utils/vec3.h:14-22` `struct vec3`. -/
@[ext]
structure V3 (R : Type*) where
  x : R
  y : R
  z : R
  deriving DecidableEq, Repr

namespace V3

variable {R : Type*}

section ops
variable [CommRing R]

instance : Zero (V3 R) := ⟨⟨0, 0, 0⟩⟩
/-- `vec3.h:24-27`. -/
instance : Add (V3 R) := ⟨fun a b => ⟨a.x + b.x, a.y + b.y, a.z + b.z⟩⟩
/-- `vec3.h:29-32`. -/
instance : Sub (V3 R) := ⟨fun a b => ⟨a.x - b.x, a.y - b.y, a.z - b.z⟩⟩
instance : Neg (V3 R) := ⟨fun a => ⟨-a.x, -a.y, -a.z⟩⟩
/-- `vec3.h:44-52`. -/
instance : SMul R (V3 R) := ⟨fun c a => ⟨c * a.x, c * a.y, c * a.z⟩⟩
instance : SMul Nat (V3 R) := ⟨fun c a => ⟨c * a.x, c * a.y, c * a.z⟩⟩
instance : SMul Int (V3 R) := ⟨fun c a => ⟨c * a.x, c * a.y, c * a.z⟩⟩

/-- `vec3.h:54-57` `dot`. -/
def dot (a b : V3 R) : R := a.x * b.x + a.y * b.y + a.z * b.z

/-- `vec3.h:59-66` `cross`. -/
def cross (a b : V3 R) : V3 R :=
  ⟨a.y * b.z - a.z * b.y, a.z * b.x - a.x * b.z, a.x * b.y - a.y * b.x⟩

/-- Squared length. -/
def normSq (a : V3 R) : R := dot a a

@[simp] theorem zero_x : (0 : V3 R).x = 0 := rfl
@[simp] theorem zero_y : (0 : V3 R).y = 0 := rfl
@[simp] theorem zero_z : (0 : V3 R).z = 0 := rfl
@[simp] theorem add_x (a b : V3 R) : (a + b).x = a.x + b.x := rfl
@[simp] theorem add_y (a b : V3 R) : (a + b).y = a.y + b.y := rfl
@[simp] theorem add_z (a b : V3 R) : (a + b).z = a.z + b.z := rfl
@[simp] theorem sub_x (a b : V3 R) : (a - b).x = a.x - b.x := rfl
@[simp] theorem sub_y (a b : V3 R) : (a - b).y = a.y - b.y := rfl
@[simp] theorem sub_z (a b : V3 R) : (a - b).z = a.z - b.z := rfl
@[simp] theorem neg_x (a : V3 R) : (-a).x = -a.x := rfl
@[simp] theorem neg_y (a : V3 R) : (-a).y = -a.y := rfl
@[simp] theorem neg_z (a : V3 R) : (-a).z = -a.z := rfl
@[simp] theorem smul_x (c : R) (a : V3 R) : (c • a).x = c * a.x := rfl
@[simp] theorem smul_y (c : R) (a : V3 R) : (c • a).y = c * a.y := rfl
@[simp] theorem smul_z (c : R) (a : V3 R) : (c • a).z = c * a.z := rfl
@[simp] theorem nsmul_x (c : Nat) (a : V3 R) : (c • a).x = c * a.x := rfl
@[simp] theorem nsmul_y (c : Nat) (a : V3 R) : (c • a).y = c * a.y := rfl
@[simp] theorem nsmul_z (c : Nat) (a : V3 R) : (c • a).z = c * a.z := rfl
@[simp] theorem zsmul_x (c : Int) (a : V3 R) : (c • a).x = c * a.x := rfl
@[simp] theorem zsmul_y (c : Int) (a : V3 R) : (c • a).y = c * a.y := rfl
@[simp] theorem zsmul_z (c : Int) (a : V3 R) : (c • a).z = c * a.z := rfl

instance : AddCommGroup (V3 R) where
  add_assoc a b c := by ext <;> simp [add_assoc]
  zero_add a := by ext <;> simp
  add_zero a := by ext <;> simp
  add_comm a b := by ext <;> simp [add_comm]
  neg_add_cancel a := by ext <;> simp
  sub_eq_add_neg a b := by ext <;> simp [sub_eq_add_neg]
  nsmul n a := n • a
  nsmul_zero a := by ext <;> simp
  nsmul_succ n a := by ext <;> simp <;> ring
  zsmul n a := n • a
  zsmul_zero' a := by ext <;> simp
  zsmul_succ' n a := by ext <;> simp <;> ring
  zsmul_neg' n a := by ext <;> simp [Int.negSucc_eq] <;> ring

instance : Module R (V3 R) where
  one_smul a := by ext <;> simp
  mul_smul a b c := by ext <;> simp <;> ring
  smul_zero a := by ext <;> simp
  smul_add a b c := by ext <;> simp <;> ring
  add_smul a b c := by ext <;> simp <;> ring
  zero_smul a := by ext <;> simp

theorem cross_smul (c d : R) (a b : V3 R) : cross (c • a) (d • b) = (c * d) • cross a b := by
  ext <;> simp [cross] <;> ring

theorem dot_comm (a b : V3 R) : dot a b = dot b a := by simp [dot]; ring
theorem dot_cross_left (a b : V3 R) : dot a (cross a b) = 0 := by simp [dot, cross]; ring
theorem dot_cross_right (a b : V3 R) : dot b (cross a b) = 0 := by simp [dot, cross]; ring
theorem dot_add (a b c : V3 R) : dot a (b + c) = dot a b + dot a c := by simp [dot]; ring
theorem add_dot (a b c : V3 R) : dot (a + b) c = dot a c + dot b c := by simp [dot]; ring
theorem dot_smul (k : R) (a b : V3 R) : dot a (k • b) = k * dot a b := by simp [dot]; ring
theorem smul_dot (k : R) (a b : V3 R) : dot (k • a) b = k * dot a b := by simp [dot]; ring
theorem normSq_smul (k : R) (a : V3 R) : normSq (k • a) = k ^ 2 * normSq a := by
  simp [normSq, dot]; ring

end ops
end V3
end P3D
