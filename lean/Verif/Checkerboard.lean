/-
The checkerboard mesh (`pytorch3d/utils/checkerboard.py`).

Vertices are pairs of integers (the third coordinate is zero); faces are triples of vertex numbers with the number of the colour, in the order of the mesh.
Not modelled: channels of the colours, devices (the grid of zeros, the faces' index and the colours are made on the CPU, so `torch.stack` fails on other devices), the texture atlas beyond one colour per face.
-/
import Mathlib.Data.List.Range
import Mathlib.Data.List.Nodup
import Mathlib.Algebra.BigOperators.Group.List.Basic
import Mathlib.Tactic.Linarith
import Mathlib.Tactic.Ring

set_option linter.unusedSectionVars false

namespace P3D.Checkerboard

inductive Err
  | value
  deriving DecidableEq, Repr

/-! ### The code -/

/-- `num_verts_per_row` (checkerboard.py:42). -/
def perRow (r : Nat) : Nat := 2 * r + 1

/-- Vertex `t` of `verts.view(1, -1, 3)` (lines 45-50): `x[t % n], x[t / n]` with `x = arange(-r, r + 1)`. -/
def vert (r t : Nat) : Int × Int := ((t % perRow r : Nat) - (r : Int), (t / perRow r : Nat) - (r : Int))

/-- The upper rows: `[t, t + 1, t + n + 1]` (lines 52-60). -/
def topTri (n t : Nat) : Nat × Nat × Nat := (t, t + 1, t + n + 1)

/-- The columns 0, 2, 1 of it plus `[0, 0, n - 1]` (lines 62-64). -/
def bottomTri (n t : Nat) : Nat × Nat × Nat := ((topTri n t).1, (topTri n t).2.2, (topTri n t).2.1 + (n - 1))

/-- Row `f` of `faces` before the boundary is removed (lines 66-73); there are `2 n (n - 1)` rows. -/
def face (n f : Nat) : Option (Nat × Nat × Nat) :=
  if f < 2 * (n * (n - 1)) then some (if f % 2 = 0 then topTri n (f / 2) else bottomTri n (f / 2)) else none

/-- `indexing_range` (lines 75-82): entries of an `n × n × 2` array without its last row and column. -/
def indexing (n : Nat) : List Nat :=
  (List.range (n - 1)).flatMap fun i => (List.range (n - 1)).flatMap fun j => (List.range 2).map fun k => (i * n + j) * 2 + k

/-- `colors` (lines 87-89): the second colour at `2::4` and `3::4`. -/
def colour (f : Nat) : Nat := if f % 4 = 2 ∨ f % 4 = 3 then 2 else 1

/-- `checkerboard(radius)`: faces and their colours. -/
def board (r : Nat) : Except Err (Option (List ((Nat × Nat × Nat) × Nat))) :=
  if r < 1 then .error .value
  else .ok ((indexing (perRow r)).mapM fun f => (face (perRow r) f).map fun t => (t, colour f))

/-! ### What a user relies on -/

/-- A triangle in the plane with its colour. -/
def geom (r : Nat) (f : (Nat × Nat × Nat) × Nat) : ((Int × Int) × (Int × Int) × (Int × Int)) × Nat :=
  ((vert r f.1.1, vert r f.1.2.1, vert r f.1.2.2), f.2)

/-- The two triangles of the unit square with the lower left corner `(a, b)`, counter-clockwise. -/
def square (a b : Int) (c : Nat) : List (((Int × Int) × (Int × Int) × (Int × Int)) × Nat) :=
  [(((a, b), (a + 1, b), (a + 1, b + 1)), c), (((a, b), (a + 1, b + 1), (a, b + 1)), c)]

/-- The colour of a square: as that of the square at the origin if the sum of the coordinates is even. -/
def squareColour (a b : Int) : Nat := if (a + b) % 2 = 0 then 1 else 2

theorem vert_at {r i j : Nat} (hj : j < perRow r) : vert r (i * perRow r + j) = ((j : Int) - r, (i : Int) - r) := by
  unfold vert
  have h0 : 0 < perRow r := by unfold perRow; omega
  rw [Nat.add_comm, Nat.add_mul_mod_self_right, Nat.mod_eq_of_lt hj, Nat.add_mul_div_right _ _ h0, Nat.div_eq_of_lt hj, Nat.zero_add]

theorem mapM_some {α β : Type} (f : α → Option β) (g : α → β) : ∀ (l : List α), (∀ x ∈ l, f x = some (g x)) → l.mapM f = some (l.map g)
  | [], _ => rfl
  | a :: l, h => by
    rw [List.mapM_cons, h a List.mem_cons_self, mapM_some f g l fun x hx => h x (List.mem_cons_of_mem _ hx)]
    rfl

theorem mem_indexing {n f : Nat} (h : f ∈ indexing n) : ∃ i j k, i < n - 1 ∧ j < n - 1 ∧ k < 2 ∧ f = (i * n + j) * 2 + k := by
  unfold indexing at h
  simp only [List.mem_flatMap, List.mem_map, List.mem_range] at h
  obtain ⟨i, hi, j, hj, k, hk, e⟩ := h
  exact ⟨i, j, k, hi, hj, hk, e.symm⟩

/-- The faces asked for exist. -/
theorem index_lt {n i j k : Nat} (hi : i < n - 1) (hj : j < n - 1) (hk : k < 2) : (i * n + j) * 2 + k < 2 * (n * (n - 1)) := by
  have h1 : (i + 1) * n ≤ (n - 1) * n := Nat.mul_le_mul_right _ (by omega)
  have h2 : (i + 1) * n = i * n + n := by ring
  have h3 : (n - 1) * n = n * (n - 1) := Nat.mul_comm _ _
  omega

theorem face_top {n i j : Nat} (hi : i < n - 1) (hj : j < n - 1) : face n ((i * n + j) * 2 + 0) = some (i * n + j, i * n + (j + 1), (i + 1) * n + (j + 1)) := by
  unfold face
  rw [if_pos (index_lt hi hj (by omega)), if_pos (by omega)]
  unfold topTri
  have : ((i * n + j) * 2 + 0) / 2 = i * n + j := by omega
  rw [this]
  congr 3
  ring

theorem face_bottom {n i j : Nat} (hi : i < n - 1) (hj : j < n - 1) : face n ((i * n + j) * 2 + 1) = some (i * n + j, (i + 1) * n + (j + 1), (i + 1) * n + j) := by
  unfold face
  rw [if_pos (index_lt hi hj (by omega)), if_neg (by omega)]
  unfold bottomTri topTri
  have : ((i * n + j) * 2 + 1) / 2 = i * n + j := by omega
  rw [this]
  have h2 : (i + 1) * n = i * n + n := by ring
  rw [h2]
  simp only [Option.some.injEq, Prod.mk.injEq, true_and]
  omega

theorem colour_square {r i j k : Nat} (hk : k < 2) : colour ((i * perRow r + j) * 2 + k) = squareColour ((j : Int) - r) ((i : Int) - r) := by
  unfold colour squareColour perRow
  have h1 : ((i * (2 * r + 1) + j) * 2 + k) % 4 = 2 ∨ ((i * (2 * r + 1) + j) * 2 + k) % 4 = 3 ↔ (i * (2 * r + 1) + j) % 2 = 1 := by omega
  have h2 : (i * (2 * r + 1) + j) % 2 = (i + j) % 2 := by
    have : i * (2 * r + 1) + j = i + j + 2 * (i * r) := by ring
    rw [this]
    omega
  rw [h2] at h1
  by_cases h : (i + j) % 2 = 1
  · rw [if_pos (h1.2 h), if_neg (by omega)]
  · rw [if_neg (fun hh => h (h1.1 hh)), if_pos (by omega)]

/-- The mesh, row by row: every unit square of the area from -r to r in both directions as two triangles in the colour of its position. -/
theorem board_squares {r : Nat} (hr : 1 ≤ r) : ∃ l, board r = .ok (some l) ∧
    l.map (geom r) = (List.range (2 * r)).flatMap fun (i : Nat) => (List.range (2 * r)).flatMap fun (j : Nat) =>
      square ((j : Int) - r) ((i : Int) - r) (squareColour ((j : Int) - r) ((i : Int) - r)) := by
  have hn : perRow r - 1 = 2 * r := by unfold perRow; omega
  have hf : ∀ f ∈ indexing (perRow r), (face (perRow r) f).map (fun t => (t, colour f)) = some ((face (perRow r) f).getD (0, 0, 0), colour f) := by
    intro f h
    obtain ⟨i, j, k, hi, hj, hk, rfl⟩ := mem_indexing h
    have := index_lt hi hj hk
    unfold face
    rw [if_pos this]
    rfl
  refine ⟨(indexing (perRow r)).map fun f => ((face (perRow r) f).getD (0, 0, 0), colour f), ?_, ?_⟩
  · unfold board
    rw [if_neg (by omega), mapM_some _ _ _ hf]
  · unfold indexing
    rw [List.map_map, List.map_flatMap, hn]
    refine List.flatMap_congr fun i hi => ?_
    rw [List.map_flatMap]
    refine List.flatMap_congr fun j hj => ?_
    rw [List.mem_range] at hi hj
    have hi' : i < perRow r - 1 := by omega
    have hj' : j < perRow r - 1 := by omega
    have hj1 : j < perRow r := by omega
    have hj2 : j + 1 < perRow r := by omega
    rw [List.map_map, show List.range 2 = [0, 1] from rfl]
    simp only [List.map_cons, List.map_nil, Function.comp_apply]
    rw [face_top hi' hj', face_bottom hi' hj', colour_square (by omega), colour_square (by omega)]
    unfold geom square
    simp only [Option.getD_some]
    rw [vert_at hj1, vert_at hj2, vert_at hj1, vert_at hj2]
    push_cast
    simp only [List.cons.injEq, Prod.mk.injEq, and_true, true_and]
    refine ⟨?_, ?_⟩ <;> omega

/-- Squares with a common side have different colours. -/
theorem opposite (a b : Int) : squareColour (a + 1) b ≠ squareColour a b ∧ squareColour a (b + 1) ≠ squareColour a b := by
  unfold squareColour
  constructor <;> split_ifs <;> omega

/-- Two squares for each unit of area: 2 (2r)² faces, none without radius. -/
theorem board_count {r : Nat} (hr : 1 ≤ r) : ∃ l, board r = .ok (some l) ∧ l.length = 2 * (2 * r) ^ 2 := by
  obtain ⟨l, h, e⟩ := board_squares hr
  refine ⟨l, h, ?_⟩
  have := congrArg List.length e
  rw [List.length_map] at this
  rw [this]
  simp [List.length_flatMap, square]
  ring

theorem board_error : board 0 = .error .value := rfl

/-- Twice the signed area of a triangle. -/
def area2 (t : (Int × Int) × (Int × Int) × (Int × Int)) : Int :=
  (t.2.1.1 - t.1.1) * (t.2.2.2 - t.1.2) - (t.2.2.1 - t.1.1) * (t.2.1.2 - t.1.2)

/-- Every face is half a unit square and faces up. -/
theorem board_area {r : Nat} (hr : 1 ≤ r) : ∃ l, board r = .ok (some l) ∧ ∀ f ∈ l, area2 (geom r f).1 = 1 := by
  obtain ⟨l, h, e⟩ := board_squares hr
  refine ⟨l, h, fun f hf => ?_⟩
  have : geom r f ∈ l.map (geom r) := List.mem_map.2 ⟨f, hf, rfl⟩
  rw [e] at this
  simp only [List.mem_flatMap] at this
  obtain ⟨i, _, j, _, h⟩ := this
  unfold square at h
  simp only [List.mem_cons, List.not_mem_nil, or_false] at h
  rcases h with h | h <;> rw [h] <;> unfold area2 <;> ring

/-- The vertices of every face exist. -/
theorem board_verts {r : Nat} (hr : 1 ≤ r) : ∃ l, board r = .ok (some l) ∧ ∀ f ∈ l, f.1.1 < perRow r ^ 2 ∧ f.1.2.1 < perRow r ^ 2 ∧ f.1.2.2 < perRow r ^ 2 := by
  have hf : ∀ f ∈ indexing (perRow r), (face (perRow r) f).map (fun t => (t, colour f)) = some ((face (perRow r) f).getD (0, 0, 0), colour f) := by
    intro f h
    obtain ⟨i, j, k, hi, hj, hk, rfl⟩ := mem_indexing h
    have := index_lt hi hj hk
    unfold face
    rw [if_pos this]
    rfl
  refine ⟨(indexing (perRow r)).map fun f => ((face (perRow r) f).getD (0, 0, 0), colour f), ?_, fun f h => ?_⟩
  · unfold board
    rw [if_neg (by omega), mapM_some _ _ _ hf]
  · obtain ⟨g, hg, rfl⟩ := List.mem_map.1 h
    obtain ⟨i, j, k, hi, hj, hk, rfl⟩ := mem_indexing hg
    have hb : ∀ a b, a < perRow r → b < perRow r → a * perRow r + b < perRow r ^ 2 := by
      intro a b ha hb
      have h1 : (a + 1) * perRow r ≤ perRow r * perRow r := Nat.mul_le_mul_right _ ha
      have h2 : (a + 1) * perRow r = a * perRow r + perRow r := by ring
      rw [pow_two]
      omega
    have hk2 : k = 0 ∨ k = 1 := by omega
    rcases hk2 with rfl | rfl
    · rw [face_top hi hj]
      exact ⟨hb _ _ (by omega) (by omega), hb _ _ (by omega) (by omega), hb _ _ (by omega) (by omega)⟩
    · rw [face_bottom hi hj]
      exact ⟨hb _ _ (by omega) (by omega), hb _ _ (by omega) (by omega), hb _ _ (by omega) (by omega)⟩

/-- Radius one: four squares, the colours 1 2 / 2 1. -/
example : (board 1).toOption = some (some [((0, 1, 4), 1), ((0, 4, 3), 1), ((1, 2, 5), 2), ((1, 5, 4), 2), ((3, 4, 7), 2), ((3, 7, 6), 2), ((4, 5, 8), 1), ((4, 8, 7), 1)]) := by decide +kernel

end P3D.Checkerboard
