/-
`ops/cubify.py`: voxel grid to mesh.

Simplifications: exact arithmetic; `idleverts.scatter_(0, indices, 0)` is the function that is 0 exactly on the given
indices. `F.conv3d` raises when the kernel (size 2) does not fit, i.e. when one of D, H, W is smaller than 2.
-/
import Verif.Closed
import Verif.Scatter
import Verif.StructUtilsProps
import Verif.Vec3
import Mathlib.Algebra.Order.Field.Basic
import Mathlib.Algebra.Order.Field.Rat
import Mathlib.Algebra.Field.Rat
import Mathlib.Tactic.FieldSimp
import Mathlib.Tactic.IntervalCases
import Mathlib.Tactic.FinCases
import Mathlib.Tactic.NormNum

set_option linter.unusedSectionVars false

namespace P3D.Cubify

open P3D.StructUtils P3D.Closed

variable {K : Type} [Field K] [LinearOrder K] [IsStrictOrderedRing K]

/-! ## Model -/

/-- The input: `vox n z y x`, batch size and grid size. -/
structure Grid (K : Type) where
  N : Nat
  D : Nat
  H : Nat
  W : Nat
  vox : Nat → Nat → Nat → Nat → K
  thresh : K

inductive Align | topleft | corner | center
  deriving DecidableEq, Repr

/-- `cubify.py:113-126`, as (x, y, z). -/
def cubeVerts : List (Nat × Nat × Nat) :=
  [(0, 0, 0), (0, 0, 1), (0, 1, 0), (0, 1, 1), (1, 0, 0), (1, 0, 1), (1, 1, 0), (1, 1, 1)]

/-- `cubify.py:129-146`. -/
def cubeFaces : List (Nat × Nat × Nat) :=
  [(0, 1, 2), (1, 3, 2), (2, 3, 6), (3, 7, 6), (0, 2, 6), (0, 6, 4), (0, 5, 1), (0, 4, 5), (6, 7, 5), (6, 5, 4),
    (1, 7, 3), (1, 5, 7)]

/-- `cubify.py:152` `voxels.ge(thresh).float()`. -/
def voxelt (g : Grid K) (n z y x : Nat) : K := if g.thresh ≤ g.vox n z y x then 1 else 0

/-- One entry of `F.conv3d(voxelt, w).gt(0.5).float()` with weights `[0.5, 0.5]` (`cubify.py:148-159`). -/
def conv (a b : K) : K := if 1 / 2 * a + 1 / 2 * b > 1 / 2 then 1 else 0

def convX (g : Grid K) (n z y x : Nat) : K := conv (voxelt g n z y x) (voxelt g n z y (x + 1))
def convY (g : Grid K) (n z y x : Nat) : K := conv (voxelt g n z y x) (voxelt g n z (y + 1) x)
def convZ (g : Grid K) (n z y x : Nat) : K := conv (voxelt g n z y x) (voxelt g n (z + 1) y x)

/-- `cubify.py:162-183`: the entry of `faces_idx` for face `k` of a voxel. -/
def facesIdx (g : Grid K) (n z y x k : Nat) : K :=
  (if k < 2 then (if 1 ≤ x then 1 - convX g n z y (x - 1) else 1)
    else if k < 4 then (if y < g.H - 1 then 1 - convY g n z y x else 1)
    else if k < 6 then (if 1 ≤ z then 1 - convZ g n (z - 1) y x else 1)
    else if k < 8 then (if 1 ≤ y then 1 - convY g n z (y - 1) x else 1)
    else if k < 10 then (if x < g.W - 1 then 1 - convX g n z y x else 1)
    else (if z < g.D - 1 then 1 - convZ g n z y x else 1)) * voxelt g n z y x

/-- `cubify.py:18-34` `unravel_index`: (n, h, w, d). -/
def unravel (idx H W D : Nat) : Nat × Nat × Nat × Nat :=
  let n := idx / (H * W * D)
  let h := (idx - n * H * W * D) / (W * D)
  let w := (idx - n * H * W * D - h * W * D) / D
  let d := idx - n * H * W * D - h * W * D - w * D
  (n, h, w, d)

/-- `cubify.py:37-53` `ravel_index` with dims (H, W, D). -/
def ravel (h w d W D : Nat) : Nat := h * W * D + w * D + d

/-- `cubify.py:186-193`: `nonzero` of the (NHWD) x 12 matrix: (linear index, face). -/
def linind (g : Grid K) : List (Nat × Nat) :=
  (List.range (g.N * g.H * g.W * g.D)).flatMap fun i =>
    let u := unravel i g.H g.W g.D
    ((List.range 12).filter fun k => decide (facesIdx g u.1 u.2.2.2 u.2.1 u.2.2.1 k ≠ 0)).map fun k => (i, k)

/-- `cubify.py:202-210`: the grid vertex of corner `c` of a voxel. -/
def gridVert (g : Grid K) (y x z c : Nat) : Nat :=
  let b := cubeVerts.getD c (0, 0, 0)
  ravel (b.2.1 + y) (b.1 + x) (b.2.2 + z) (g.W + 1) (g.D + 1)

/-- `cubify.py:199-212`: one row of `grid_faces`. -/
def gridFace (g : Grid K) (y x z k : Nat) : Nat × Nat × Nat :=
  let f := cubeFaces.getD k (0, 0, 0)
  (gridVert g y x z f.1, gridVert g y x z f.2.1, gridVert g y x z f.2.2)

/-- One row of `linind` with its batch index, its voxel and its grid face. -/
def row (g : Grid K) (p : Nat × Nat) : Nat × (Nat × Nat × Nat) :=
  let u := unravel p.1 g.H g.W g.D
  (u.1, gridFace g u.2.1 u.2.2.1 u.2.2.2 p.2)

/-- `cubify.py:219-227`, one coordinate: `i` the grid index, `S` the size. -/
def coord (al : Align) (S : Nat) (i : Nat) : K :=
  let i' : K := if al = .center then (i : K) - 1 / 2 else i
  let margin : K := if al = .corner then 0 else 1
  i' * 2 / ((S : K) - margin) - 1

/-- `cubify.py:214-230`: row `v` of `grid_verts` (`meshgrid` over (H+1, W+1, D+1), flattened). -/
def gridPos (al : Align) (g : Grid K) (v : Nat) : V3 K :=
  let z := v % (g.D + 1)
  let x := v / (g.D + 1) % (g.W + 1)
  let y := v / (g.D + 1) / (g.W + 1)
  ⟨coord al g.W x, coord al g.H y, coord al g.D z⟩

/-- Number of grid vertices. -/
def numVerts (g : Grid K) : Nat := (g.H + 1) * (g.W + 1) * (g.D + 1)

/-- `cubify.py:238-241`: the vertices used by some face, batch `n` shifted by `n * num_verts`. -/
def indices (g : Grid K) : List Nat :=
  ((linind g).map (row g)).flatMap fun r =>
    [r.2.1 + r.1 * numVerts g, r.2.2.1 + r.1 * numVerts g, r.2.2.2 + r.1 * numVerts g]

/-- `cubify.py:239-249`: `idleverts.view(N, num_verts)[n, v]` after the scatter. -/
def idle (g : Grid K) (n v : Nat) : Nat := if n * numVerts g + v ∈ indices g then 0 else 1

/-- `cubify.py:250`: inclusive cumulative sum. -/
def idlenum (g : Grid K) (n v : Nat) : Nat := ((List.range (v + 1)).map (idle g n)).sum

/-- A mesh of the output, with one feature row per face when features are given. -/
structure Out (K F : Type) where
  verts : List (V3 K)
  faces : List (Int × Int × Int)
  feats : List F

/-- `cubify.py:252-255`. -/
def vertsOf (al : Align) (g : Grid K) (n : Nat) : List (V3 K) :=
  ((List.range (numVerts g)).filter fun v => decide (idle g n v = 0)).map (gridPos al g)

/-- `cubify.py:272`, one face. -/
def reindex (g : Grid K) (n : Nat) (f : Nat × Nat × Nat) : Int × Int × Int :=
  ((f.1 : Int) - idlenum g n f.1, (f.2.1 : Int) - idlenum g n f.2.1, (f.2.2 : Int) - idlenum g n f.2.2)

/-- `cubify.py:56-273`. `feats` is the (NHWD) x K matrix of `cubify.py:261-264`, used when `align` is "center". -/
def cubify {F : Type} (al : Align) (g : Grid K) (feats : Nat → F) : Except Err (List (Out K F)) :=
  if g.N = 0 then .ok []
  else if g.D < 2 ∨ g.H < 2 ∨ g.W < 2 then .error .runtimeError
  else if (linind g).length = 0 then .ok (List.replicate g.N ⟨[], [], []⟩)
  else do
    let sizes := (List.range g.N).map fun n => ((linind g).map fun p => (row g p).1).count n
    let fl ← packedToList ((linind g).map fun p => (row g p).2) sizes
    let ql ← packedToList ((linind g).map fun p => feats p.1) sizes
    return (List.range g.N).map fun n => ⟨vertsOf al g n, (fl.getD n []).map (reindex g n), ql.getD n []⟩

/-! ## Specification -/

/-- Voxel `(x, y, z)` of grid `n` (any integers) is inside the grid and at least `thresh`. -/
def Occupied (g : Grid K) (n : Nat) (x y z : Int) : Prop :=
  (0 ≤ x ∧ x < g.W) ∧ (0 ≤ y ∧ y < g.H) ∧ (0 ≤ z ∧ z < g.D) ∧ g.thresh ≤ g.vox n z.toNat y.toNat x.toNat

/-- The side of the cube on which face `k` lies, as a step to the neighbouring voxel. -/
def outward (k : Nat) : V3 Int :=
  if k < 2 then ⟨-1, 0, 0⟩ else if k < 4 then ⟨0, 1, 0⟩ else if k < 6 then ⟨0, 0, -1⟩ else if k < 8 then ⟨0, -1, 0⟩
  else if k < 10 then ⟨1, 0, 0⟩ else ⟨0, 0, 1⟩

/-- Face `k` of voxel `(x, y, z)` belongs to the boundary: the voxel is occupied, the voxel on the other side is not. -/
def Boundary (g : Grid K) (n x y z k : Nat) : Prop :=
  Occupied g n x y z ∧ ¬ Occupied g n (x + (outward k).x) (y + (outward k).y) (z + (outward k).z)

instance (g : Grid K) (n : Nat) (x y z : Int) : Decidable (Occupied g n x y z) := by unfold Occupied; infer_instance
instance (g : Grid K) (n x y z k : Nat) : Decidable (Boundary g n x y z k) := by unfold Boundary; infer_instance

/-- The boundary faces of grid `n` in output order, as (y, x, z, k). -/
def boundaryFaces (g : Grid K) (n : Nat) : List (Nat × Nat × Nat × Nat) :=
  (List.range g.H).flatMap fun y => (List.range g.W).flatMap fun x => (List.range g.D).flatMap fun z =>
    ((List.range 12).filter fun k => decide (Boundary g n x y z k)).map fun k => (y, x, z, k)

/-! ## Which faces are present -/

theorem conv_eq (p q : Prop) [Decidable p] [Decidable q] :
    conv (if p then (1 : K) else 0) (if q then 1 else 0) = if p ∧ q then 1 else 0 := by
  unfold conv
  by_cases hp : p <;> by_cases hq : q <;> simp [hp, hq]

theorem present_aux (p q r : Prop) [Decidable p] [Decidable q] [Decidable r] :
    ((if p then 1 - (if q ∧ r then (1 : K) else 0) else 1) * (if r then 1 else 0) ≠ 0) ↔ r ∧ ¬ (p ∧ q) := by
  by_cases hp : p <;> by_cases hq : q <;> by_cases hr : r <;> simp [hp, hq, hr]

theorem and_comm_if (p q : Prop) [Decidable p] [Decidable q] : (if p ∧ q then (1 : K) else 0) = if q ∧ p then 1 else 0 := by
  by_cases hp : p <;> by_cases hq : q <;> simp [hp, hq]

/-- **C40a.** A face is emitted exactly when its voxel is occupied and the voxel across it is not (or is outside). -/
theorem facesIdx_ne_zero (g : Grid K) (n x y z k : Nat) (hx : x < g.W) (hy : y < g.H) (hz : z < g.D) (hk : k < 12) :
    facesIdx g n z y x k ≠ 0 ↔ Boundary g n x y z k := by
  have hocc : ∀ a b c : Nat, a < g.W → b < g.H → c < g.D →
      (Occupied g n a b c ↔ g.thresh ≤ g.vox n c b a) := by
    intro a b c ha hb hc
    unfold Occupied
    simp only [Int.toNat_natCast]
    constructor
    · rintro ⟨_, _, _, h⟩; exact h
    · intro h; exact ⟨⟨by omega, by omega⟩, ⟨by omega, by omega⟩, ⟨by omega, by omega⟩, h⟩
  have h0 := hocc x y z hx hy hz
  unfold Boundary
  rw [h0]
  have cases : k < 2 ∨ (2 ≤ k ∧ k < 4) ∨ (4 ≤ k ∧ k < 6) ∨ (6 ≤ k ∧ k < 8) ∨ (8 ≤ k ∧ k < 10) ∨ 10 ≤ k := by omega
  rcases cases with h | h | h | h | h | h
  · simp only [facesIdx, outward, if_pos h]
    by_cases hx1 : 1 ≤ x
    · have e : ((x : Int) + -1) = ((x - 1 : Nat) : Int) := by omega
      have e2 : x - 1 + 1 = x := by omega
      simp only [e, Int.add_zero, hocc (x - 1) y z (by omega) hy hz, convX, voxelt, conv_eq, e2]
      rw [present_aux]; tauto
    · have : ¬ Occupied g n ((x : Int) + -1) (y + 0) (z + 0) := by unfold Occupied; omega
      simp only [this, hx1, if_false, one_mul, voxelt, not_false_eq_true, and_true]
      simp
  · simp only [facesIdx, outward, if_neg (by omega : ¬ k < 2), if_pos h.2]
    by_cases hy1 : y < g.H - 1
    · have e : ((y : Int) + 1) = ((y + 1 : Nat) : Int) := by omega
      simp only [e, Int.add_zero, hocc x (y + 1) z hx (by omega) hz, convY, voxelt, conv_eq]
      rw [and_comm_if, present_aux]; tauto
    · have : ¬ Occupied g n ((x : Int) + 0) (y + 1) (z + 0) := by unfold Occupied; omega
      simp only [this, hy1, if_false, one_mul, voxelt, not_false_eq_true, and_true]
      simp
  · simp only [facesIdx, outward, if_neg (by omega : ¬ k < 2), if_neg (by omega : ¬ k < 4), if_pos h.2]
    by_cases hz1 : 1 ≤ z
    · have e : ((z : Int) + -1) = ((z - 1 : Nat) : Int) := by omega
      have e2 : z - 1 + 1 = z := by omega
      simp only [e, Int.add_zero, hocc x y (z - 1) hx hy (by omega), convZ, voxelt, conv_eq, e2]
      rw [present_aux]; tauto
    · have : ¬ Occupied g n ((x : Int) + 0) (y + 0) (z + -1) := by unfold Occupied; omega
      simp only [this, hz1, if_false, one_mul, voxelt, not_false_eq_true, and_true]
      simp
  · simp only [facesIdx, outward, if_neg (by omega : ¬ k < 2), if_neg (by omega : ¬ k < 4), if_neg (by omega : ¬ k < 6),
      if_pos h.2]
    by_cases hy1 : 1 ≤ y
    · have e : ((y : Int) + -1) = ((y - 1 : Nat) : Int) := by omega
      have e2 : y - 1 + 1 = y := by omega
      simp only [e, Int.add_zero, hocc x (y - 1) z hx (by omega) hz, convY, voxelt, conv_eq, e2]
      rw [present_aux]; tauto
    · have : ¬ Occupied g n ((x : Int) + 0) (y + -1) (z + 0) := by unfold Occupied; omega
      simp only [this, hy1, if_false, one_mul, voxelt, not_false_eq_true, and_true]
      simp
  · simp only [facesIdx, outward, if_neg (by omega : ¬ k < 2), if_neg (by omega : ¬ k < 4), if_neg (by omega : ¬ k < 6),
      if_neg (by omega : ¬ k < 8), if_pos h.2]
    by_cases hx1 : x < g.W - 1
    · have e : ((x : Int) + 1) = ((x + 1 : Nat) : Int) := by omega
      simp only [e, Int.add_zero, hocc (x + 1) y z (by omega) hy hz, convX, voxelt, conv_eq]
      rw [and_comm_if, present_aux]; tauto
    · have : ¬ Occupied g n ((x : Int) + 1) (y + 0) (z + 0) := by unfold Occupied; omega
      simp only [this, hx1, if_false, one_mul, voxelt, not_false_eq_true, and_true]
      simp
  · simp only [facesIdx, outward, if_neg (by omega : ¬ k < 2), if_neg (by omega : ¬ k < 4), if_neg (by omega : ¬ k < 6),
      if_neg (by omega : ¬ k < 8), if_neg (by omega : ¬ k < 10)]
    by_cases hz1 : z < g.D - 1
    · have e : ((z : Int) + 1) = ((z + 1 : Nat) : Int) := by omega
      simp only [e, Int.add_zero, hocc x y (z + 1) hx hy (by omega), convZ, voxelt, conv_eq]
      rw [and_comm_if, present_aux]; tauto
    · have : ¬ Occupied g n ((x : Int) + 0) (y + 0) (z + 1) := by unfold Occupied; omega
      simp only [this, hz1, if_false, one_mul, voxelt, not_false_eq_true, and_true]
      simp

/-- **C40b.** Each triangle of the table lies on its side of the cube and faces outwards: its corners are on that side,
and in index space its area vector is exactly the step to the neighbouring voxel. -/
theorem cubeFaces_outward : cubeFaces.length = 12 ∧ ∀ k < 12, ∀ f ∈ cubeFaces[k]?, ∀ a ∈ cubeVerts[f.1]?,
    ∀ b ∈ cubeVerts[f.2.1]?, ∀ c ∈ cubeVerts[f.2.2]?,
      V3.cross (⟨b.1 - a.1, b.2.1 - a.2.1, b.2.2 - a.2.2⟩ : V3 Int) ⟨c.1 - a.1, c.2.1 - a.2.1, c.2.2 - a.2.2⟩
          = outward k ∧
        ∀ d ∈ [a, b, c], V3.dot (outward k) ⟨2 * d.1 - 1, 2 * d.2.1 - 1, 2 * d.2.2 - 1⟩ = 1 := by
  decide +kernel

/-! ## Closedness -/

section Closed

variable (g : Grid K) (n : Nat) (φ : Nat → Nat → ℤ)

/-- Occupancy as a number. -/
def occ (x y z : Int) : ℤ := if Occupied g n x y z then 1 else 0

omit [Field K] [IsStrictOrderedRing K] in
theorem occ_out {x y z : Int} (h : ¬ Occupied g n x y z) : occ g n x y z = 0 := if_neg h

/-- Antisymmetric sum around face `k` of a voxel. -/
def T (y x z k : Nat) : ℤ := tri φ (gridFace g y x z k)

theorem gridVert_right (y x z : Nat) (c : Nat) (hc : c < 4) : gridVert g y x z (c + 4) = gridVert g y (x + 1) z c := by
  interval_cases c <;> simp [gridVert, cubeVerts, ravel] <;> ring

theorem gridVert_y (y x z : Nat) : gridVert g y x z 2 = gridVert g (y + 1) x z 0 ∧
    gridVert g y x z 3 = gridVert g (y + 1) x z 1 ∧ gridVert g y x z 6 = gridVert g (y + 1) x z 4 ∧
    gridVert g y x z 7 = gridVert g (y + 1) x z 5 := by
  refine ⟨?_, ?_, ?_, ?_⟩ <;> simp [gridVert, cubeVerts, ravel] <;> ring

theorem gridVert_z (y x z : Nat) : gridVert g y x z 1 = gridVert g y x (z + 1) 0 ∧
    gridVert g y x z 3 = gridVert g y x (z + 1) 2 ∧ gridVert g y x z 5 = gridVert g y x (z + 1) 4 ∧
    gridVert g y x z 7 = gridVert g y x (z + 1) 6 := by
  refine ⟨?_, ?_, ?_, ?_⟩ <;> simp [gridVert, cubeVerts, ravel] <;> ring

variable {φ} (hφ : Anti φ)
include hφ

/-- The surface of a cube is closed. -/
theorem cube_closed (y x z : Nat) : T g φ y x z 0 + T g φ y x z 1 + (T g φ y x z 2 + T g φ y x z 3)
    + (T g φ y x z 4 + T g φ y x z 5) + (T g φ y x z 6 + T g φ y x z 7) + (T g φ y x z 8 + T g φ y x z 9)
    + (T g φ y x z 10 + T g φ y x z 11) = 0 := by
  simp only [T, tri, gridFace, cubeFaces, List.getD_cons_zero, List.getD_cons_succ]
  generalize gridVert g y x z 0 = v0
  generalize gridVert g y x z 1 = v1
  generalize gridVert g y x z 2 = v2
  generalize gridVert g y x z 3 = v3
  generalize gridVert g y x z 4 = v4
  generalize gridVert g y x z 5 = v5
  generalize gridVert g y x z 6 = v6
  generalize gridVert g y x z 7 = v7
  linarith [hφ v0 v1, hφ v1 v2, hφ v0 v2, hφ v1 v3, hφ v2 v3, hφ v3 v6, hφ v2 v6, hφ v3 v7, hφ v6 v7, hφ v0 v6,
    hφ v4 v6, hφ v0 v4, hφ v0 v5, hφ v1 v5, hφ v4 v5, hφ v5 v7, hφ v5 v6, hφ v1 v7]

/-- The right side of a voxel is the left side of the next voxel, reversed; likewise in the other directions. -/
theorem side_x (y x z : Nat) : T g φ y x z 8 + T g φ y x z 9 = -(T g φ y (x + 1) z 0 + T g φ y (x + 1) z 1) := by
  simp only [T, tri, gridFace, cubeFaces, List.getD_cons_zero, List.getD_cons_succ]
  rw [gridVert_right g y x z 0 (by omega), gridVert_right g y x z 1 (by omega), gridVert_right g y x z 2 (by omega),
    gridVert_right g y x z 3 (by omega)]
  generalize gridVert g y (x + 1) z 0 = v0
  generalize gridVert g y (x + 1) z 1 = v1
  generalize gridVert g y (x + 1) z 2 = v2
  generalize gridVert g y (x + 1) z 3 = v3
  linarith [hφ v0 v1, hφ v1 v2, hφ v0 v2, hφ v1 v3, hφ v2 v3]

theorem side_y (y x z : Nat) : T g φ y x z 2 + T g φ y x z 3 = -(T g φ (y + 1) x z 6 + T g φ (y + 1) x z 7) := by
  simp only [T, tri, gridFace, cubeFaces, List.getD_cons_zero, List.getD_cons_succ]
  obtain ⟨e1, e2, e3, e4⟩ := gridVert_y g y x z
  rw [e1, e2, e3, e4]
  generalize gridVert g (y + 1) x z 0 = v0
  generalize gridVert g (y + 1) x z 1 = v1
  generalize gridVert g (y + 1) x z 4 = v4
  generalize gridVert g (y + 1) x z 5 = v5
  linarith [hφ v0 v1, hφ v1 v4, hφ v0 v4, hφ v1 v5, hφ v4 v5, hφ v0 v5]

theorem side_z (y x z : Nat) : T g φ y x z 10 + T g φ y x z 11 = -(T g φ y x (z + 1) 4 + T g φ y x (z + 1) 5) := by
  simp only [T, tri, gridFace, cubeFaces, List.getD_cons_zero, List.getD_cons_succ]
  obtain ⟨e1, e2, e3, e4⟩ := gridVert_z g y x z
  rw [e1, e2, e3, e4]
  generalize gridVert g y x (z + 1) 0 = v0
  generalize gridVert g y x (z + 1) 2 = v2
  generalize gridVert g y x (z + 1) 4 = v4
  generalize gridVert g y x (z + 1) 6 = v6
  linarith [hφ v0 v2, hφ v2 v4, hφ v0 v4, hφ v2 v6, hφ v4 v6, hφ v0 v6]

omit hφ in
theorem boundary_sum (y x z : Nat) :
    (((List.range 12).filter fun k => decide (Boundary g n x y z k)).map fun k => T g φ y x z k).sum
      = occ g n x y z * (
        (1 - occ g n (x - 1) y z) * (T g φ y x z 0 + T g φ y x z 1)
        + (1 - occ g n x (y + 1) z) * (T g φ y x z 2 + T g φ y x z 3)
        + (1 - occ g n x y (z - 1)) * (T g φ y x z 4 + T g φ y x z 5)
        + (1 - occ g n x (y - 1) z) * (T g φ y x z 6 + T g φ y x z 7)
        + (1 - occ g n (x + 1) y z) * (T g φ y x z 8 + T g φ y x z 9)
        + (1 - occ g n x y (z + 1)) * (T g φ y x z 10 + T g φ y x z 11)) := by
  have hterm : ∀ k, (if Boundary g n x y z k then T g φ y x z k else 0)
      = occ g n x y z * ((1 - occ g n (x + (outward k).x) (y + (outward k).y) (z + (outward k).z)) * T g φ y x z k) := by
    intro k
    unfold Boundary occ
    by_cases h1 : Occupied g n x y z <;>
      by_cases h2 : Occupied g n (x + (outward k).x) (y + (outward k).y) (z + (outward k).z) <;> simp [h1, h2]
  have hfilter : ∀ l : List Nat, ((l.filter fun k => decide (Boundary g n x y z k)).map fun k => T g φ y x z k).sum
      = (l.map fun k => if Boundary g n x y z k then T g φ y x z k else 0).sum := by
    intro l
    induction l with
    | nil => rfl
    | cons k l ih => by_cases h : Boundary g n x y z k <;> simp [h, ih]
  rw [hfilter]
  have hr : List.range 12 = [0, 1, 2, 3, 4, 5, 6, 7, 8, 9, 10, 11] := by decide
  rw [hr]
  simp only [hterm, List.map_cons, List.map_nil, List.sum_cons, List.sum_nil]
  simp [outward, ← sub_eq_add_neg]
  ring

theorem closed_sum : (((boundaryFaces g n).map fun b => gridFace g b.1 b.2.1 b.2.2.1 b.2.2.2).map (tri φ)).sum = 0 := by
  rw [List.map_map]
  unfold boundaryFaces
  simp only [sum_flatMap, sum_range_list, List.map_map]
  have hcell : ∀ y x z : Nat, (((List.range 12).filter fun k => decide (Boundary g n x y z k)).map
      ((tri φ ∘ fun b => gridFace g b.1 b.2.1 b.2.2.1 b.2.2.2) ∘ fun k => (y, x, z, k))).sum
      = -((occ g n x y z * occ g n (x - 1) y z * (T g φ y x z 0 + T g φ y x z 1)
          - occ g n (x + 1 : Nat) y z * occ g n ((x + 1 : Nat) - 1) y z * (T g φ y (x + 1) z 0 + T g φ y (x + 1) z 1))
        + (occ g n x y z * occ g n x (y - 1) z * (T g φ y x z 6 + T g φ y x z 7)
          - occ g n x (y + 1 : Nat) z * occ g n x ((y + 1 : Nat) - 1) z * (T g φ (y + 1) x z 6 + T g φ (y + 1) x z 7))
        + (occ g n x y z * occ g n x y (z - 1) * (T g φ y x z 4 + T g φ y x z 5)
          - occ g n x y (z + 1 : Nat) * occ g n x y ((z + 1 : Nat) - 1)
            * (T g φ y x (z + 1) 4 + T g φ y x (z + 1) 5))) := by
    intro y x z
    have h1 := boundary_sum g n (φ := φ) y x z
    have e : ((tri φ ∘ fun b : Nat × Nat × Nat × Nat => gridFace g b.1 b.2.1 b.2.2.1 b.2.2.2) ∘ fun k => (y, x, z, k))
        = fun k => T g φ y x z k := rfl
    rw [e, h1]
    have c := cube_closed g hφ y x z
    have sx := side_x g hφ y x z
    have sy := side_y g hφ y x z
    have sz := side_z g hφ y x z
    push_cast
    simp only [add_sub_cancel_right]
    generalize occ g n x y z = o at *
    linear_combination o * c - o * occ g n (x + 1) y z * sx - o * occ g n x (y + 1) z * sy - o * occ g n x y (z + 1) * sz
  simp only [hcell]
  simp only [Finset.sum_neg_distrib, Finset.sum_add_distrib, neg_eq_zero]
  have hx : ∑ y ∈ Finset.range g.H, ∑ x ∈ Finset.range g.W, ∑ z ∈ Finset.range g.D,
      (occ g n x y z * occ g n (x - 1) y z * (T g φ y x z 0 + T g φ y x z 1)
          - occ g n (x + 1 : Nat) y z * occ g n ((x + 1 : Nat) - 1) y z * (T g φ y (x + 1) z 0 + T g φ y (x + 1) z 1)) = 0 := by
    apply Finset.sum_eq_zero
    intro y _
    simp only [Finset.sum_sub_distrib]
    rw [Finset.sum_comm, Finset.sum_comm (s := Finset.range g.W), ← Finset.sum_sub_distrib]
    apply Finset.sum_eq_zero
    intro z _
    rw [← Finset.sum_sub_distrib,
      Finset.sum_range_sub' (fun x : Nat => occ g n x y z * occ g n (x - 1) y z * (T g φ y x z 0 + T g φ y x z 1))]
    have a : occ g n ((0 : Nat) - 1) y z = 0 := by exact occ_out g n (by rintro ⟨h1, h2, h3, _⟩; simp at h1 h2 h3; try omega)
    have b : occ g n (g.W : Nat) y z = 0 := by exact occ_out g n (by rintro ⟨h1, h2, h3, _⟩; simp at h1 h2 h3; try omega)
    rw [a, b]; ring
  have hy : ∑ y ∈ Finset.range g.H, ∑ x ∈ Finset.range g.W, ∑ z ∈ Finset.range g.D,
      (occ g n x y z * occ g n x (y - 1) z * (T g φ y x z 6 + T g φ y x z 7)
          - occ g n x (y + 1 : Nat) z * occ g n x ((y + 1 : Nat) - 1) z * (T g φ (y + 1) x z 6 + T g φ (y + 1) x z 7)) = 0 := by
    simp only [Finset.sum_sub_distrib]
    rw [← Finset.sum_sub_distrib, Finset.sum_range_sub' (fun y : Nat => ∑ x ∈ Finset.range g.W, ∑ z ∈ Finset.range g.D,
      occ g n x y z * occ g n x (y - 1) z * (T g φ y x z 6 + T g φ y x z 7))]
    have a : ∀ x z : Int, occ g n x ((0 : Nat) - 1) z = 0 := by intro x z; exact occ_out g n (by rintro ⟨h1, h2, h3, _⟩; simp at h1 h2 h3; try omega)
    have b : ∀ x z : Int, occ g n x (g.H : Nat) z = 0 := by intro x z; exact occ_out g n (by rintro ⟨h1, h2, h3, _⟩; simp at h1 h2 h3; try omega)
    simp only [a, b]; simp
  have hz : ∑ y ∈ Finset.range g.H, ∑ x ∈ Finset.range g.W, ∑ z ∈ Finset.range g.D,
      (occ g n x y z * occ g n x y (z - 1) * (T g φ y x z 4 + T g φ y x z 5)
          - occ g n x y (z + 1 : Nat) * occ g n x y ((z + 1 : Nat) - 1)
            * (T g φ y x (z + 1) 4 + T g φ y x (z + 1) 5)) = 0 := by
    apply Finset.sum_eq_zero
    intro y _
    apply Finset.sum_eq_zero
    intro x _
    rw [Finset.sum_range_sub' (fun z : Nat => occ g n x y z * occ g n x y (z - 1) * (T g φ y x z 4 + T g φ y x z 5))]
    have a : occ g n x y ((0 : Nat) - 1) = 0 := by exact occ_out g n (by rintro ⟨h1, h2, h3, _⟩; simp at h1 h2 h3; try omega)
    have b : occ g n x y (g.D : Nat) = 0 := by exact occ_out g n (by rintro ⟨h1, h2, h3, _⟩; simp at h1 h2 h3; try omega)
    rw [a, b]; ring
  rw [hx, hy, hz]; rfl

end Closed

theorem boundary_isClosed (g : Grid K) (n : Nat) :
    IsClosed ((boundaryFaces g n).map fun b => gridFace g b.1 b.2.1 b.2.2.1 b.2.2.2) := by
  rw [isClosed_iff]
  intro φ hφ
  exact closed_sum g n hφ

/-! ## The list of faces -/

/-- The linear index of a voxel. -/
def lin (g : Grid K) (n y x z : Nat) : Nat := ((n * g.H + y) * g.W + x) * g.D + z

theorem unravel_lin (g : Grid K) {n y x z : Nat} (hy : y < g.H) (hx : x < g.W) (hz : z < g.D) :
    unravel (lin g n y x z) g.H g.W g.D = (n, y, x, z) := by
  have e1 : lin g n y x z = n * (g.H * g.W * g.D) + (y * (g.W * g.D) + (x * g.D + z)) := by unfold lin; ring
  have b1 : x * g.D + z < g.W * g.D := by
    calc x * g.D + z < x * g.D + g.D := by omega
      _ = (x + 1) * g.D := by ring
      _ ≤ g.W * g.D := Nat.mul_le_mul_right _ hx
  have b2 : y * (g.W * g.D) + (x * g.D + z) < g.H * g.W * g.D := by
    calc y * (g.W * g.D) + (x * g.D + z) < y * (g.W * g.D) + g.W * g.D := by omega
      _ = (y + 1) * (g.W * g.D) := by ring
      _ ≤ g.H * (g.W * g.D) := Nat.mul_le_mul_right _ hy
      _ = g.H * g.W * g.D := by ring
  have d1 : lin g n y x z / (g.H * g.W * g.D) = n := by rw [e1]; exact Scatter.div_decode b2
  have s1 : lin g n y x z - n * g.H * g.W * g.D = y * (g.W * g.D) + (x * g.D + z) := by
    rw [e1]
    have : n * g.H * g.W * g.D = n * (g.H * g.W * g.D) := by ring
    omega
  have d2 : (lin g n y x z - n * g.H * g.W * g.D) / (g.W * g.D) = y := by rw [s1]; exact Scatter.div_decode b1
  have s2 : lin g n y x z - n * g.H * g.W * g.D - y * g.W * g.D = x * g.D + z := by
    rw [s1]
    have : y * g.W * g.D = y * (g.W * g.D) := by ring
    omega
  have d3 : (lin g n y x z - n * g.H * g.W * g.D - y * g.W * g.D) / g.D = x := by rw [s2]; exact Scatter.div_decode hz
  have s3 : lin g n y x z - n * g.H * g.W * g.D - y * g.W * g.D - x * g.D = z := by rw [s2]; omega
  simp only [unravel, d1, d2, d3, s3]

theorem mem_boundaryFaces (g : Grid K) (n : Nat) (b : Nat × Nat × Nat × Nat) :
    b ∈ boundaryFaces g n ↔ b.1 < g.H ∧ b.2.1 < g.W ∧ b.2.2.1 < g.D ∧ b.2.2.2 < 12 ∧
      Boundary g n b.2.1 b.1 b.2.2.1 b.2.2.2 := by
  obtain ⟨y, x, z, k⟩ := b
  simp only [boundaryFaces, List.mem_flatMap, List.mem_range, List.mem_map, List.mem_filter, decide_eq_true_eq,
    Prod.mk.injEq]
  constructor
  · rintro ⟨y', hy, x', hx, z', hz, k', ⟨hk, hb⟩, rfl, rfl, rfl, rfl⟩
    exact ⟨hy, hx, hz, hk, hb⟩
  · rintro ⟨hy, hx, hz, hk, hb⟩
    exact ⟨y, hy, x, hx, z, hz, k, ⟨hk, hb⟩, rfl, rfl, rfl, rfl⟩

/-- The rows of `linind` are the boundary faces, batch by batch. -/
theorem linind_eq (g : Grid K) : linind g = (List.range g.N).flatMap fun n =>
    (boundaryFaces g n).map fun b => (lin g n b.1 b.2.1 b.2.2.1, b.2.2.2) := by
  unfold linind
  rw [Scatter.flatMap_range_mul, Scatter.flatMap_range_mul, Scatter.flatMap_range_mul]
  apply Scatter.flatMap_congr'
  intro n _
  unfold boundaryFaces
  rw [List.map_flatMap]
  apply Scatter.flatMap_congr'
  intro y hy
  rw [List.map_flatMap]
  apply Scatter.flatMap_congr'
  intro x hx
  rw [List.map_flatMap]
  apply Scatter.flatMap_congr'
  intro z hz
  have hy := List.mem_range.mp hy
  have hx := List.mem_range.mp hx
  have hz := List.mem_range.mp hz
  have hu : unravel (((n * g.H + y) * g.W + x) * g.D + z) g.H g.W g.D = (n, y, x, z) := unravel_lin g hy hx hz
  simp only [hu, List.map_map]
  have : (List.range 12).filter (fun k => decide (facesIdx g n z y x k ≠ 0))
      = (List.range 12).filter (fun k => decide (Boundary g n x y z k)) := by
    apply List.filter_congr
    intro k hk
    simp only [facesIdx_ne_zero g n x y z k hx hy hz (List.mem_range.mp hk)]
  rw [this]
  rfl

theorem row_lin (g : Grid K) {n : Nat} {b : Nat × Nat × Nat × Nat} (hb : b ∈ boundaryFaces g n) :
    row g (lin g n b.1 b.2.1 b.2.2.1, b.2.2.2) = (n, gridFace g b.1 b.2.1 b.2.2.1 b.2.2.2) := by
  obtain ⟨hy, hx, hz, _⟩ := (mem_boundaryFaces g n b).mp hb
  simp only [row, unravel_lin g hy hx hz]

theorem rows_eq (g : Grid K) : (linind g).map (row g) = (List.range g.N).flatMap fun n =>
    (boundaryFaces g n).map fun b => (n, gridFace g b.1 b.2.1 b.2.2.1 b.2.2.2) := by
  rw [linind_eq, List.map_flatMap]
  apply Scatter.flatMap_congr'
  intro n _
  rw [List.map_map]
  apply List.map_congr_left
  intro b hb
  exact row_lin g hb

theorem count_flatMap_const {α : Type} (N n : Nat) (hn : n < N) (l : Nat → List α) :
    ((List.range N).flatMap fun m => (l m).map fun _ => m).count n = (l n).length := by
  induction N with
  | zero => omega
  | succ N ih =>
    rw [List.range_succ, List.flatMap_append, List.count_append, List.flatMap_singleton, List.map_const']
    by_cases h : n < N
    · rw [ih h, List.count_replicate]
      have : ¬ (N = n) := by omega
      simp [this]
    · have : n = N := by omega
      subst this
      have h0 : ((List.range n).flatMap fun m => (l m).map fun _ => m).count n = 0 := by
        rw [List.count_eq_zero]
        intro hm
        obtain ⟨m, hm, hm2⟩ := List.mem_flatMap.mp hm
        obtain ⟨_, _, rfl⟩ := List.mem_map.mp hm2
        exact absurd (List.mem_range.mp hm) (by omega)
      rw [h0]; simp

/-- Sizes computed by `bincount` are the numbers of boundary faces. -/
theorem sizes_eq (g : Grid K) : ((List.range g.N).map fun n => ((linind g).map fun p => (row g p).1).count n)
    = (List.range g.N).map fun n => (boundaryFaces g n).length := by
  apply List.map_congr_left
  intro n hn
  have : ((linind g).map fun p => (row g p).1) = ((linind g).map (row g)).map Prod.fst := by rw [List.map_map]; rfl
  rw [this, rows_eq, List.map_flatMap]
  simp only [List.map_map]
  exact count_flatMap_const g.N n (List.mem_range.mp hn) (boundaryFaces g)

theorem split_blocks {α : Type} (N : Nat) (l : Nat → List α) :
    packedToList ((List.range N).flatMap l) ((List.range N).map fun n => (l n).length)
      = .ok ((List.range N).map l) := by
  have e : (List.range N).flatMap l = ((List.range N).map l).flatten := by rw [List.flatMap_def]
  have e2 : ((List.range N).map fun n => (l n).length) = ((List.range N).map l).map List.length := by rw [List.map_map]; rfl
  rw [e, e2]
  unfold packedToList
  rw [if_pos (by rw [List.length_flatten]), packedToList_go_flatten]

/-- **C40c.** `cubify` raises exactly when a grid dimension is smaller than 2 (with a non-empty batch); otherwise mesh `n`
has exactly the boundary faces of grid `n`, in the order of the voxels, with vertex indices compacted by `reindex`, and
the features of the voxel each face belongs to. -/
theorem cubify_spec {F : Type} (al : Align) (g : Grid K) (feats : Nat → F) :
    cubify al g feats = if g.N ≠ 0 ∧ (g.D < 2 ∨ g.H < 2 ∨ g.W < 2) then .error .runtimeError else
      .ok ((List.range g.N).map fun n => ⟨vertsOf al g n,
        (boundaryFaces g n).map fun b => reindex g n (gridFace g b.1 b.2.1 b.2.2.1 b.2.2.2),
        (boundaryFaces g n).map fun b => feats (lin g n b.1 b.2.1 b.2.2.1)⟩) := by
  unfold cubify
  by_cases h0 : g.N = 0
  · simp [h0]
  rw [if_neg h0]
  by_cases h1 : g.D < 2 ∨ g.H < 2 ∨ g.W < 2
  · rw [if_pos h1, if_pos ⟨h0, h1⟩]
  rw [if_neg h1, if_neg (fun h : g.N ≠ 0 ∧ _ => h1 h.2)]
  by_cases h2 : (linind g).length = 0
  · rw [if_pos h2]
    have hl : linind g = [] := List.eq_nil_of_length_eq_zero h2
    have hv : ∀ n, vertsOf al g n = [] := by
      intro n
      unfold vertsOf idle indices
      simp [hl]
    have hb : ∀ n < g.N, boundaryFaces g n = [] := by
      intro n hn
      rw [linind_eq, List.flatMap_eq_nil_iff] at hl
      have := hl n (List.mem_range.mpr hn)
      exact List.map_eq_nil_iff.mp this
    congr 1
    symm
    rw [List.eq_replicate_iff]
    refine ⟨by simp, ?_⟩
    intro o ho
    obtain ⟨n, hn, rfl⟩ := List.mem_map.mp ho
    rw [hv, hb n (List.mem_range.mp hn)]
    rfl
  rw [if_neg h2]
  have f1 : ((linind g).map fun p => (row g p).2) = (List.range g.N).flatMap fun n =>
      (boundaryFaces g n).map fun b => gridFace g b.1 b.2.1 b.2.2.1 b.2.2.2 := by
    have : ((linind g).map fun p => (row g p).2) = ((linind g).map (row g)).map Prod.snd := by rw [List.map_map]; rfl
    rw [this, rows_eq, List.map_flatMap]
    simp only [List.map_map]
    rfl
  have f2 : ((linind g).map fun p => feats p.1) = (List.range g.N).flatMap fun n =>
      (boundaryFaces g n).map fun b => feats (lin g n b.1 b.2.1 b.2.2.1) := by
    rw [linind_eq, List.map_flatMap]
    simp only [List.map_map]
    rfl
  have s1 := split_blocks g.N fun n => (boundaryFaces g n).map fun b => gridFace g b.1 b.2.1 b.2.2.1 b.2.2.2
  have s2 := split_blocks g.N fun n => (boundaryFaces g n).map fun b => feats (lin g n b.1 b.2.1 b.2.2.1)
  simp only [List.length_map] at s1 s2
  simp only [f1, f2, sizes_eq, s1, s2]
  show Except.ok _ = Except.ok _
  congr 1
  apply List.map_congr_left
  intro n hn
  have hn := List.mem_range.mp hn
  simp only [List.getD_eq_getElem?_getD, List.getElem?_map, List.getElem?_range hn, Option.map_some, Option.getD_some,
    List.map_map]
  rfl

/-! ## Vertices -/

theorem gridVert_lt (g : Grid K) {y x z : Nat} (c : Nat) (hy : y < g.H) (hx : x < g.W) (hz : z < g.D) :
    gridVert g y x z c < numVerts g := by
  have hb : (cubeVerts.getD c (0, 0, 0)).1 ≤ 1 ∧ (cubeVerts.getD c (0, 0, 0)).2.1 ≤ 1 ∧
      (cubeVerts.getD c (0, 0, 0)).2.2 ≤ 1 := by
    by_cases h : c < 8
    · interval_cases c <;> decide
    · have : cubeVerts[c]? = none := List.getElem?_eq_none (by simp [cubeVerts]; omega)
      rw [List.getD_eq_getElem?_getD, this]; decide
  unfold gridVert numVerts ravel
  generalize cubeVerts.getD c (0, 0, 0) = b at *
  obtain ⟨bx, by', bz⟩ := b
  simp only at *
  have h1 : (bx + x) * (g.D + 1) + (bz + z) < (g.W + 1) * (g.D + 1) := by
    calc (bx + x) * (g.D + 1) + (bz + z) < (bx + x) * (g.D + 1) + (g.D + 1) := by omega
      _ = (bx + x + 1) * (g.D + 1) := by ring
      _ ≤ (g.W + 1) * (g.D + 1) := Nat.mul_le_mul_right _ (by omega)
  calc (by' + y) * (g.W + 1) * (g.D + 1) + (bx + x) * (g.D + 1) + (bz + z)
      < (by' + y) * (g.W + 1) * (g.D + 1) + (g.W + 1) * (g.D + 1) := by omega
    _ = (by' + y + 1) * ((g.W + 1) * (g.D + 1)) := by ring
    _ ≤ (g.H + 1) * ((g.W + 1) * (g.D + 1)) := Nat.mul_le_mul_right _ (by omega)
    _ = (g.H + 1) * (g.W + 1) * (g.D + 1) := by ring

/-- Vertex `v` of the grid is a corner of face `f`. -/
def corner (v : Nat) (f : Nat × Nat × Nat) : Prop := v = f.1 ∨ v = f.2.1 ∨ v = f.2.2

theorem gridFace_lt (g : Grid K) {n : Nat} {b : Nat × Nat × Nat × Nat} (hb : b ∈ boundaryFaces g n) {v : Nat}
    (hv : corner v (gridFace g b.1 b.2.1 b.2.2.1 b.2.2.2)) : v < numVerts g := by
  obtain ⟨hy, hx, hz, _⟩ := (mem_boundaryFaces g n b).mp hb
  rcases hv with rfl | rfl | rfl <;> exact gridVert_lt g _ hy hx hz

theorem mem_indices (g : Grid K) {n v : Nat} (hn : n < g.N) (hv : v < numVerts g) : n * numVerts g + v ∈ indices g ↔
    ∃ b ∈ boundaryFaces g n, corner v (gridFace g b.1 b.2.1 b.2.2.1 b.2.2.2) := by
  unfold indices
  rw [rows_eq]
  simp only [List.mem_flatMap, List.mem_map, List.mem_range, List.mem_cons, List.not_mem_nil, or_false]
  have key : ∀ m w, w < numVerts g → n * numVerts g + v = w + m * numVerts g → m = n ∧ w = v := by
    intro m w hw h
    have h1 : (n * numVerts g + v) / numVerts g = n := Scatter.div_decode hv
    have h2 : (m * numVerts g + w) / numVerts g = m := Scatter.div_decode hw
    have h3 : (n * numVerts g + v) % numVerts g = v := Scatter.mod_decode hv
    have h4 : (m * numVerts g + w) % numVerts g = w := Scatter.mod_decode hw
    rw [h, Nat.add_comm w] at h1 h3
    exact ⟨h2.symm.trans h1, h4.symm.trans h3⟩
  constructor
  · rintro ⟨r, ⟨m, hm, b, hb, rfl⟩, h⟩
    have hlt := fun v => gridFace_lt g hb (v := v)
    rcases h with h | h | h
    · obtain ⟨rfl, e⟩ := key m _ (hlt _ (Or.inl rfl)) h
      exact ⟨b, hb, Or.inl e.symm⟩
    · obtain ⟨rfl, e⟩ := key m _ (hlt _ (Or.inr (Or.inl rfl))) h
      exact ⟨b, hb, Or.inr (Or.inl e.symm)⟩
    · obtain ⟨rfl, e⟩ := key m _ (hlt _ (Or.inr (Or.inr rfl))) h
      exact ⟨b, hb, Or.inr (Or.inr e.symm)⟩
  · rintro ⟨b, hb, h⟩
    refine ⟨_, ⟨n, hn, b, hb, rfl⟩, ?_⟩
    rcases h with h | h | h <;> rw [h] <;> simp [Nat.add_comm]

theorem idle_eq_zero (g : Grid K) {n v : Nat} (hn : n < g.N) (hv : v < numVerts g) : idle g n v = 0 ↔
    ∃ b ∈ boundaryFaces g n, corner v (gridFace g b.1 b.2.1 b.2.2.1 b.2.2.2) := by
  rw [← mem_indices g hn hv]
  unfold idle
  split <;> simp_all

/-- An element of a filtered range sits at the number of kept smaller elements. -/
theorem filter_range_get (p : Nat → Bool) (M v : Nat) (hv : v < M) (hp : p v = true) :
    ((List.range M).filter p)[((List.range v).filter p).length]? = some v := by
  have e : List.range M = List.range v ++ v :: (List.range (M - v - 1)).map (fun i => v + 1 + i) := by
    have h1 : M = v + (1 + (M - v - 1)) := by omega
    conv_lhs => rw [h1, List.range_add, List.range_add]
    simp [Nat.add_assoc]
  rw [e, List.filter_append, List.filter_cons_of_pos hp, List.getElem?_append_right (by omega)]
  simp

theorem idlenum_eq (g : Grid K) (n v : Nat) (hv : idle g n v = 0) :
    (v : Int) - idlenum g n v = ((List.range v).filter fun u => decide (idle g n u = 0)).length := by
  have h : ∀ m, ((List.range m).map (idle g n)).sum + ((List.range m).filter fun u => decide (idle g n u = 0)).length = m := by
    intro m
    induction m with
    | zero => rfl
    | succ m ih =>
      rw [List.range_succ, List.map_append, List.sum_append, List.filter_append, List.length_append]
      have : idle g n m = 0 ∨ idle g n m = 1 := by unfold idle; split <;> simp
      rcases this with h | h <;> simp [h] <;> omega
  have := h v
  have e : idlenum g n v = ((List.range v).map (idle g n)).sum := by
    unfold idlenum
    rw [List.range_succ, List.map_append, List.sum_append]; simp [hv]
  omega

/-- The new index of a used vertex points at its position. -/
theorem vertsOf_get (al : Align) (g : Grid K) {n v : Nat} (hv : v < numVerts g) (hu : idle g n v = 0) :
    0 ≤ (v : Int) - idlenum g n v ∧
      (vertsOf al g n)[((v : Int) - idlenum g n v).toNat]? = some (gridPos al g v) := by
  rw [idlenum_eq g n v hu]
  refine ⟨by omega, ?_⟩
  unfold vertsOf
  rw [List.getElem?_map, Int.toNat_natCast, filter_range_get _ _ _ hv (by simpa using hu)]
  rfl

/-- The position of a corner of a voxel. -/
def cornerPos (al : Align) (g : Grid K) (y x z c : Nat) : V3 K :=
  let b := cubeVerts.getD c (0, 0, 0)
  ⟨coord al g.W (x + b.1), coord al g.H (y + b.2.1), coord al g.D (z + b.2.2)⟩

theorem gridPos_gridVert (al : Align) (g : Grid K) {y x z : Nat} (c : Nat) (hx : x < g.W) (hz : z < g.D) :
    gridPos al g (gridVert g y x z c) = cornerPos al g y x z c := by
  have hb : (cubeVerts.getD c (0, 0, 0)).1 ≤ 1 ∧ (cubeVerts.getD c (0, 0, 0)).2.2 ≤ 1 := by
    by_cases h : c < 8
    · interval_cases c <;> decide
    · have : cubeVerts[c]? = none := List.getElem?_eq_none (by simp [cubeVerts]; omega)
      rw [List.getD_eq_getElem?_getD, this]; decide
  unfold gridPos gridVert cornerPos ravel
  generalize cubeVerts.getD c (0, 0, 0) = b at *
  obtain ⟨bx, by', bz⟩ := b
  simp only at *
  have e : (by' + y) * (g.W + 1) * (g.D + 1) + (bx + x) * (g.D + 1) + (bz + z)
      = ((by' + y) * (g.W + 1) + (bx + x)) * (g.D + 1) + (bz + z) := by ring
  rw [e, Scatter.div_decode (by omega), Scatter.mod_decode (by omega), Scatter.div_decode (by omega),
    Scatter.mod_decode (by omega), Nat.add_comm bx, Nat.add_comm by', Nat.add_comm bz]

/-- Grid step along a dimension of size `S`. -/
def step (al : Align) (S : Nat) : K := 2 / ((S : K) - if al = .corner then 0 else 1)

theorem coord_eq (al : Align) (S i : Nat) :
    (coord al S i : K) = (if al = .center then -(1 / 2) else 0) * step al S - 1 + i * step al S := by
  unfold coord step
  split <;> ring

theorem step_pos (al : Align) {S : Nat} (h : 2 ≤ S) : (0 : K) < step al S := by
  have h2 : (2 : K) ≤ S := by exact_mod_cast h
  unfold step
  apply div_pos (by norm_num)
  split <;> linarith

theorem coord_inj (al : Align) {S i j : Nat} (h : 2 ≤ S) (e : (coord al S i : K) = coord al S j) : i = j := by
  rw [coord_eq, coord_eq] at e
  have hs : (step al S : K) ≠ 0 := (step_pos al h).ne'
  have : (i : K) = j := mul_right_cancel₀ hs (by linarith)
  exact_mod_cast this

/-- **C40d.** Placement. "topleft": the first and last voxel have their top-left corners at -1 and 1, the others are equally
spaced. "center": the same for the voxel centres. "corner": the outer corners of the grid are at -1 and 1. -/
theorem placement {S : Nat} (h : 2 ≤ S) (i : Nat) :
    (coord .topleft S i : K) = -1 + 2 * i / (S - 1) ∧
    ((coord .center S i : K) + coord .center S (i + 1)) / 2 = -1 + 2 * i / (S - 1) ∧
    (coord .corner S i : K) = -1 + 2 * i / S ∧
    (coord .topleft S 0 : K) = -1 ∧ (coord .topleft S (S - 1) : K) = 1 ∧
    (coord .corner S 0 : K) = -1 ∧ (coord .corner S S : K) = 1 := by
  have h2 : (2 : K) ≤ S := by exact_mod_cast h
  have h3 : (S : K) - 1 ≠ 0 := by intro h; linarith
  have h4 : (S : K) ≠ 0 := by intro h; linarith
  have h5 : ((S - 1 : Nat) : K) = (S : K) - 1 := by rw [Nat.cast_sub (by omega)]; simp
  refine ⟨?_, ?_, ?_, ?_, ?_, ?_, ?_⟩ <;> simp [coord, h5] <;> field_simp <;> ring

theorem gridPos_inj (al : Align) (g : Grid K) (hD : 2 ≤ g.D) (hH : 2 ≤ g.H) (hW : 2 ≤ g.W) {u v : Nat}
    (e : gridPos al g u = gridPos al g v) : u = v := by
  unfold gridPos at e
  simp only [V3.mk.injEq] at e
  have a := coord_inj al hW e.1
  have b := coord_inj al hH e.2.1
  have c := coord_inj al hD e.2.2
  have d : u / (g.D + 1) = v / (g.D + 1) := by
    rw [← Nat.div_add_mod (u / (g.D + 1)) (g.W + 1), ← Nat.div_add_mod (v / (g.D + 1)) (g.W + 1), a, b]
  rw [← Nat.div_add_mod u (g.D + 1), ← Nat.div_add_mod v (g.D + 1), c, d]

/-- Looking up a (signed) vertex index. -/
def lookV (vs : List (V3 K)) (i : Int) : Option (V3 K) := if 0 ≤ i then vs[i.toNat]? else none

/-- **C40.** The meshes returned by `cubify` on grids with all dimensions at least 2. Mesh `n` has one face per side
triangle between an occupied voxel and an unoccupied or outside one; the corners of each face are the positions of the
voxel's corners given by the cube tables; each face carries the feature of its voxel; every directed edge occurs as often as
its reverse (the surface is closed and consistently oriented); no two vertices have the same position; every vertex
belongs to a face. -/
theorem cubify_mesh {F : Type} (al : Align) (g : Grid K) (feats : Nat → F) (hD : 2 ≤ g.D) (hH : 2 ≤ g.H) (hW : 2 ≤ g.W) :
    ∃ ms, cubify al g feats = .ok ms ∧ ms.length = g.N ∧ ∀ n < g.N, ∃ o, ms[n]? = some o ∧
      o.faces.length = (boundaryFaces g n).length ∧
      (∀ i y x z k : Nat, (boundaryFaces g n)[i]? = some (y, x, z, k) → ∃ f p, o.faces[i]? = some f ∧
        cubeFaces[k]? = some p ∧ lookV o.verts f.1 = some (cornerPos al g y x z p.1) ∧
        lookV o.verts f.2.1 = some (cornerPos al g y x z p.2.1) ∧
        lookV o.verts f.2.2 = some (cornerPos al g y x z p.2.2) ∧
        o.feats[i]? = some (feats (lin g n y x z))) ∧
      IsClosed o.faces ∧ o.verts.Nodup ∧
      ∀ i < o.verts.length, ∃ f ∈ o.faces, (i : Int) = f.1 ∨ (i : Int) = f.2.1 ∨ (i : Int) = f.2.2 := by
  refine ⟨_, by rw [cubify_spec, if_neg (by omega)], by simp, ?_⟩
  intro n hn
  refine ⟨_, by rw [List.getElem?_map, List.getElem?_range hn]; rfl, by simp, ?_, ?_, ?_, ?_⟩
  · intro i y x z k hb
    have hmem : (y, x, z, k) ∈ boundaryFaces g n := List.mem_of_getElem? hb
    obtain ⟨hy, hx, hz, hk, _⟩ := (mem_boundaryFaces g n _).mp hmem
    simp only at hy hx hz hk
    have hk' : k < cubeFaces.length := hk
    have look : ∀ v, corner v (gridFace g y x z k) →
        lookV (vertsOf al g n) ((v : Int) - idlenum g n v) = some (gridPos al g v) := by
      intro v hv
      have hlt : v < numVerts g := gridFace_lt g hmem hv
      have hu := (idle_eq_zero g hn hlt).mpr ⟨_, hmem, hv⟩
      obtain ⟨h0, h1⟩ := vertsOf_get al g hlt hu
      rw [lookV, if_pos h0, h1]
    have hgd : cubeFaces.getD k (0, 0, 0) = cubeFaces[k] := by simp [List.getD_eq_getElem?_getD, hk']
    refine ⟨_, _, by simp only [List.getElem?_map, hb]; rfl, List.getElem?_eq_getElem hk', ?_, ?_, ?_, ?_⟩
    · show lookV (vertsOf al g n) (((gridFace g y x z k).1 : Int) - _) = _
      rw [look _ (Or.inl rfl), ← hgd]
      exact congrArg some (gridPos_gridVert al g _ hx hz)
    · show lookV (vertsOf al g n) (((gridFace g y x z k).2.1 : Int) - _) = _
      rw [look _ (Or.inr (Or.inl rfl)), ← hgd]
      exact congrArg some (gridPos_gridVert al g _ hx hz)
    · show lookV (vertsOf al g n) (((gridFace g y x z k).2.2 : Int) - _) = _
      rw [look _ (Or.inr (Or.inr rfl)), ← hgd]
      exact congrArg some (gridPos_gridVert al g _ hx hz)
    · simp only [List.getElem?_map, hb]; rfl
  · have h := (boundary_isClosed g n).map (fun v : Nat => (v : Int) - idlenum g n v)
    rw [List.map_map] at h
    exact h
  · show (vertsOf al g n).Nodup
    unfold vertsOf
    refine List.Nodup.map_on ?_ (List.nodup_range.filter _)
    intro u _ v _ e
    exact gridPos_inj al g hD hH hW e
  · intro i hi
    change i < (vertsOf al g n).length at hi
    unfold vertsOf at hi
    rw [List.length_map] at hi
    have hm := List.getElem_mem hi
    have hget := List.getElem?_eq_getElem hi
    set v := ((List.range (numVerts g)).filter fun v => decide (idle g n v = 0))[i] with hv
    rw [List.mem_filter, List.mem_range, decide_eq_true_eq] at hm
    have hpos := filter_range_get (fun v => decide (idle g n v = 0)) (numVerts g) v hm.1 (by simpa using hm.2)
    have hidx : i = ((List.range v).filter fun u => decide (idle g n u = 0)).length := by
      have hlt := (List.getElem?_eq_some_iff.mp hpos).1
      have hnd : ((List.range (numVerts g)).filter fun v => decide (idle g n v = 0)).Nodup := List.nodup_range.filter _
      exact (List.getElem?_inj hi hnd).mp (hget.trans hpos.symm)
    have hnew : (i : Int) = (v : Int) - idlenum g n v := by rw [idlenum_eq g n v hm.2, ← hidx]
    obtain ⟨b, hb, hc⟩ := (idle_eq_zero g hn hm.1).mp hm.2
    refine ⟨_, List.mem_map.mpr ⟨b, hb, rfl⟩, ?_⟩
    rw [hnew]
    rcases hc with h | h | h
    · left; rw [h]; rfl
    · right; left; rw [h]; rfl
    · right; right; rw [h]; rfl

/-- **C40e.** In space, too, each face has its area vector along the step to the neighbouring voxel: away from its voxel. -/
theorem face_outward (al : Align) (g : Grid K) (y x z k : Nat) (hk : k < 12) :
    let p := cubeFaces.getD k (0, 0, 0)
    let a := cornerPos al g y x z p.1
    V3.cross (cornerPos al g y x z p.2.1 - a) (cornerPos al g y x z p.2.2 - a)
      = ⟨step al g.H * step al g.D * (outward k).x, step al g.W * step al g.D * (outward k).y,
          step al g.W * step al g.H * (outward k).z⟩ := by
  interval_cases k <;> simp [cubeFaces, cubeVerts, cornerPos, coord_eq, V3.cross, outward, V3.ext_iff] <;>
    ring

/-! ## Examples -/

/-- Two neighbouring voxels of a 2x2x2 grid, and a second grid that is empty. -/
def ex : Grid ℚ := ⟨2, 2, 2, 2, fun n z y _ => if n = 0 ∧ z = 0 ∧ y = 0 then 1 else 0, 1 / 2⟩

example : (boundaryFaces ex 0).length = 20 ∧ boundaryFaces ex 1 = [] ∧ (vertsOf .topleft ex 0).length = 12 ∧
    (boundaryFaces ex 0).head? = some (0, 0, 0, 0) ∧ ¬ Boundary ex 0 0 0 0 8 ∧ Boundary ex 0 0 0 0 2 := by decide +kernel

example : cornerPos .center ex 0 0 0 7 = (⟨0, 0, 0⟩ : V3 ℚ) ∧ cornerPos .corner ex 0 1 0 7 = (⟨1, 0, 0⟩ : V3 ℚ) ∧
    cornerPos .topleft ex 0 1 0 0 = (⟨1, -1, -1⟩ : V3 ℚ) := by decide +kernel

/-- A single slice cannot be converted. -/
example : cubify (F := Unit) .topleft (⟨1, 1, 4, 4, fun _ _ _ _ => 1, 0⟩ : Grid ℚ) (fun _ => ())
    = .error .runtimeError := by
  rw [cubify_spec]; rfl

/-- Occupancy equal to the threshold counts as occupied. -/
example : Occupied (⟨1, 2, 2, 2, fun _ _ _ _ => 1 / 2, 1 / 2⟩ : Grid ℚ) 0 0 0 0 := by decide +kernel

end P3D.Cubify
