/-
C16: `ball_query` — `csrc/ball_query/ball_query_cpu.cpp`, `ball_query.cu` (the loop over `j` is the
same; the distribution of work is in `Chunks.lean`), `ops/ball_query.py`, `ops/utils.py:20-63`.

Numbers are an arbitrary ordered field.  An index −1 is `none`.
-/
import Verif.Knn
import Verif.KnnProps
import Mathlib.Tactic.Positivity

set_option linter.unusedSimpArgs false
set_option linter.unusedSectionVars false

namespace P3D.BallQuery
open P3D.Knn

section model
variable {R : Type*} [Field R] [LinearOrder R]

/-- `ball_query_cpu.cpp:45-53`: no coordinate differs by more than the radius (the loop stops at the
first that does). -/
def inCube (radius : R) : List R → List R → Bool
  | x :: p, y :: q => if |x - y| ≤ radius then inCube radius p q else false
  | _, _ => true

/-- `ball_query_cpu.cpp:43-66`: the loop over `j` with the running `count`; a store outside the row
is undefined. -/
def ballLoop (K : Nat) (radius : R) (skip : Bool) (p : List R) :
    List (List R × Nat) → Nat → List (R × Option Nat) → Option (List (R × Option Nat))
  | [], _, row => some row
  | (q, j) :: rest, count, row =>
    if count < K then
      if skip && !inCube radius p q then ballLoop K radius skip p rest count row
      else if pdist 2 p q < radius * radius then
        (Mem.write row (count, (pdist 2 p q, some j))).bind
          (ballLoop K radius skip p rest (count + 1))
      else ballLoop K radius skip p rest count row
    else some row

/-- `ball_query_cpu.cpp:25-26, 43-66`: one query point (`q` are the valid points of `p2`). -/
def ballRow (K : Nat) (radius : R) (skip : Bool) (p : List R) (q : List (List R)) :
    Option (List (R × Option Nat)) :=
  ballLoop K radius skip p q.zipIdx 0 (List.replicate K (0, none))

/-- `ops/utils.py:20-63` `masked_gather` for one list of indices. -/
def maskedGather {U : Type*} (zero : U) (pts : List U) (idx : List (Option Nat)) : Option (List U) :=
  idx.mapM (fun i => (pts[i.getD 0]?).map (fun u => if i.isNone then zero else u))

end model

section props
variable {R : Type*} [Field R] [LinearOrder R] [IsStrictOrderedRing R]

/-- Specification: the (squared distance, index) pairs of the points at squared distance below `r2`,
in the order of the cloud. -/
def hits (r2 : R) (p : List R) (q : List (List R)) : List (R × Option Nat) :=
  (q.zipIdx.filter (fun e => decide (pdist 2 p e.1 < r2))).map (fun e => (pdist 2 p e.1, some e.2))

omit [IsStrictOrderedRing R] in
theorem ballLoop_spec {K : Nat} {radius : R} {skip : Bool} {p : List R}
    (es : List (List R × Nat)) (done : List (R × Option Nat)) (hd : done.length ≤ K) :
    ballLoop K radius skip p es done.length (done ++ List.replicate (K - done.length) (0, none))
      = some (let l := (done ++ (es.filter (fun e => (!skip || inCube radius p e.1) &&
              decide (pdist 2 p e.1 < radius * radius))).map
                (fun e => (pdist 2 p e.1, some e.2))).take K
          l ++ List.replicate (K - l.length) (0, none)) := by
  induction es generalizing done with
  | nil => simp [ballLoop, List.take_of_length_le hd]
  | cons e es ih =>
    obtain ⟨q, j⟩ := e
    rw [ballLoop]
    by_cases hK : done.length < K
    · rw [if_pos hK]
      by_cases hs : (skip && !inCube radius p q) = true
      · rw [if_pos hs, ih done hd]
        have hf : (!skip || inCube radius p q) = false := by
          cases skip <;> simp_all
        simp [List.filter_cons, hf]
      · rw [if_neg hs]
        have hf : (!skip || inCube radius p q) = true := by
          cases skip <;> simp_all
        by_cases hr : pdist 2 p q < radius * radius
        · rw [if_pos hr, Mem.write, if_pos (by simp; omega), Option.bind_some]
          have e1 : (done ++ List.replicate (K - done.length) ((0 : R), (none : Option Nat))).set
              done.length (pdist 2 p q, some j)
              = (done ++ [(pdist 2 p q, some j)])
                ++ List.replicate (K - (done ++ [(pdist 2 p q, some j)]).length) (0, none) := by
            rw [List.set_append_right _ _ (le_refl _), Nat.sub_self,
              show K - done.length = (K - (done.length + 1)) + 1 by omega, List.replicate_succ]
            simp
          have := ih (done ++ [(pdist 2 p q, some j)]) (by simp; omega)
          rw [List.length_append, List.length_singleton] at this
          rw [e1, List.length_append, List.length_singleton, this]
          simp [List.filter_cons, hf, hr]
        · rw [if_neg hr, ih done hd]
          simp [List.filter_cons, hr]
    · rw [if_neg hK]
      have : done.length = K := by omega
      simp [List.take_append_of_le_length (Nat.le_of_eq this.symm), this,
        List.take_of_length_le (Nat.le_of_eq this)]

theorem pdist_nonneg (p q : List R) : 0 ≤ pdist 2 p q := by
  rw [pdist_eq]
  apply List.sum_nonneg
  intro x hx
  rw [List.mem_iff_getElem] at hx
  obtain ⟨i, hi, rfl⟩ := hx
  simp only [List.getElem_zipWith, show ¬ (2 = 1) by omega, if_false]
  positivity

theorem pdist_cons (x y : R) (p q : List R) :
    pdist 2 (x :: p) (y :: q) = (x - y) ^ 2 + pdist 2 p q := by
  rw [pdist_eq, pdist_eq]; simp

/-- A point inside the ball is inside the cube. -/
theorem inCube_of_lt {radius : R} (hr : 0 ≤ radius) (p q : List R)
    (h : pdist 2 p q < radius * radius) : inCube radius p q = true := by
  induction p generalizing q with
  | nil => cases q <;> rfl
  | cons x p ih =>
    cases q with
    | nil => rfl
    | cons y q =>
      rw [pdist_cons] at h
      have h1 := pdist_nonneg p q
      have h2 : |x - y| ≤ radius := by
        apply abs_le_of_sq_le_sq _ hr
        nlinarith
      rw [inCube, if_pos h2]
      exact ih q (by nlinarith [sq_nonneg (x - y)])

/-- **C16.** For a radius ≥ 0 (or without the cube test): for all points and every `K`, the row holds
the first `K` points whose squared distance is below `radius²`, in order, padded with (0, −1).  The
cube test changes nothing. -/
theorem ballRow_spec (K : Nat) {radius : R} {skip : Bool} (h : 0 ≤ radius ∨ skip = false)
    (p : List R) (q : List (List R)) :
    ∃ row, ballRow K radius skip p q = some row ∧ row.length = K ∧
      row = (hits (radius ^ 2) p q).take K
        ++ List.replicate (K - ((hits (radius ^ 2) p q).take K).length) (0, none) := by
  have := ballLoop_spec (K := K) (radius := radius) (skip := skip) (p := p) q.zipIdx []
    (Nat.zero_le _)
  simp only [List.length_nil, List.nil_append, Nat.sub_zero] at this
  have e : (q.zipIdx.filter (fun e => (!skip || inCube radius p e.1) &&
      decide (pdist 2 p e.1 < radius * radius)))
      = q.zipIdx.filter (fun e => decide (pdist 2 p e.1 < radius ^ 2)) := by
    apply List.filter_congr
    intro x _
    rw [pow_two]
    rcases h with h | h
    · by_cases hc : pdist 2 p x.1 < radius * radius
      · simp [hc, inCube_of_lt h p x.1 hc]
      · simp [hc]
    · simp [h]
  rw [e] at this
  exact ⟨_, this, by simp, rfl⟩

/-- What is in the row: exactly the points in the ball if there are at most `K`. -/
theorem mem_hits (r2 : R) (p : List R) (q : List (List R)) (d : R) (j : Option Nat) :
    (d, j) ∈ hits r2 p q ↔ ∃ i x, j = some i ∧ q[i]? = some x ∧ d = pdist 2 p x ∧ d < r2 := by
  simp only [hits, List.mem_map, List.mem_filter, decide_eq_true_eq]
  constructor
  · rintro ⟨⟨x, i⟩, ⟨h1, h2⟩, h3⟩
    simp only [Prod.mk.injEq] at h3
    exact ⟨i, x, h3.2.symm, List.mk_mem_zipIdx_iff_getElem?.mp h1, h3.1.symm, by rw [← h3.1]; exact h2⟩
  · rintro ⟨i, x, rfl, h2, rfl, h4⟩
    exact ⟨(x, i), ⟨List.mk_mem_zipIdx_iff_getElem?.mpr h2, h4⟩, rfl⟩

/-- The indices in the row are strictly increasing. -/
theorem hits_increasing (r2 : R) (p : List R) (q : List (List R)) :
    (hits r2 p q).Pairwise (fun a b => ∃ i j, a.2 = some i ∧ b.2 = some j ∧ i < j) := by
  rw [hits, List.pairwise_map]
  have : q.zipIdx.Pairwise (fun a b => a.2 < b.2) := by
    have h := List.pairwise_lt_range' (s := 0) (n := q.length) (step := 1)
    rw [← List.zipIdx_map_snd 0 q, List.pairwise_map] at h
    exact h
  exact (this.filter _).imp (fun h => ⟨_, _, rfl, rfl, h⟩)

/-- Finding: with a negative radius the option changes the result (dimension ≥ 1).  Without it the
radius acts like its absolute value; with it nothing is found. -/
theorem ballRow_negative (K : Nat) {radius : R} (h : radius < 0) (p : List R) (hp : p ≠ [])
    (q : List (List R)) (hq : ∀ x ∈ q, x.length = p.length) :
    ballRow K radius true p q = some (List.replicate K (0, none)) ∧
      ballRow K radius false p q = ballRow K (-radius) false p q := by
  constructor
  · have := ballLoop_spec (K := K) (radius := radius) (skip := true) (p := p) q.zipIdx []
      (Nat.zero_le _)
    simp only [List.length_nil, List.nil_append, Nat.sub_zero] at this
    rw [ballRow, this]
    have e : (q.zipIdx.filter (fun e => (!true || inCube radius p e.1) &&
      decide (pdist 2 p e.1 < radius * radius))) = [] := by
      rw [List.filter_eq_nil_iff]
      rintro ⟨x, i⟩ hx
      have hl := hq x (List.fst_mem_of_mem_zipIdx hx)
      match p, x, hp, hl with
      | a :: p, b :: x, _, _ =>
        have : ¬ |a - b| ≤ radius := by
          have := abs_nonneg (a - b); intro hh; linarith
        simp [inCube, this]
    rw [e]
    simp
  · obtain ⟨r1, h1, -, h1'⟩ := ballRow_spec K (radius := radius) (skip := false) (Or.inr rfl) p q
    obtain ⟨r2, h2, -, h2'⟩ := ballRow_spec K (radius := -radius) (skip := false) (Or.inr rfl) p q
    rw [h1, h2, h1', h2', neg_sq]

/-- `masked_gather` of a row: the points of the row, zeros for the padding. -/
theorem maskedGather_spec {U : Type*} (zero : U) (pts : List U) (hp : 0 < pts.length)
    (idx : List (Option Nat)) (hi : ∀ i, some i ∈ idx → i < pts.length) :
    ∃ out, maskedGather zero pts idx = some out ∧ out.length = idx.length ∧
      ∀ (k : Nat) i, idx[k]? = some i → out[k]? = some (i.elim zero (fun i => pts.getD i zero)) := by
  induction idx with
  | nil => exact ⟨[], rfl, rfl, by simp⟩
  | cons i idx ih =>
    obtain ⟨out, h1, h2, h3⟩ := ih (fun j hj => hi j (by simp [hj]))
    have hhead : ∃ u, (pts[i.getD 0]?).map (fun u => if i.isNone then zero else u) = some u ∧
        u = (i.elim zero (fun i => pts.getD i zero)) := by
      cases i with
      | none => exact ⟨zero, by simp [List.getElem?_eq_getElem hp], rfl⟩
      | some i =>
        have := hi i (by simp)
        exact ⟨pts[i], by simp [List.getElem?_eq_getElem this], by simp [this]⟩
    obtain ⟨u, h4, h5⟩ := hhead
    refine ⟨u :: out, ?_, by simp [h2], ?_⟩
    · simp only [maskedGather, List.mapM_cons] at h1 ⊢
      rw [h4, h1]; rfl
    · intro k j hk
      cases k with
      | zero =>
        simp only [List.getElem?_cons_zero, Option.some.injEq] at hk ⊢
        subst hk; exact h5
      | succ k => simp only [List.getElem?_cons_succ] at hk ⊢; exact h3 k j hk

example : ballRow 2 2 true [(0 : ℚ), 0] [[3, 0], [1, 1], [2, 0], [0, 1], [0, 0]]
    = some [(2, some 1), (1, some 3)] := by decide +kernel

example : ballRow 1 (-2) false [(0 : ℚ)] [[1]] = some [(1, some 0)] ∧
    ballRow 1 (-2) true [(0 : ℚ)] [[1]] = some [(0, none)] := by decide +kernel

end props
end P3D.BallQuery
