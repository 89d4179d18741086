/-
C44: structure of the Laplacian matrices.
-/
import Verif.Laplacian
import Mathlib.Algebra.BigOperators.Ring.List
import Mathlib.Tactic.Ring
import Mathlib.Tactic.Linarith
import Mathlib.Tactic.FieldSimp
import Mathlib.Tactic.Positivity
import Mathlib.Tactic.NormNum
import Mathlib.Data.Rat.Floor

set_option linter.unusedSectionVars false

namespace P3D.Laplacian
open P3D.Scatter

/-! ### Uniform Laplacian -/

section Uniform
variable {R : Type*} [Field R] [LinearOrder R] [IsStrictOrderedRing R]

/-- Specification: the neighbours of `i`, with multiplicity. -/
def nbrs (edges : List (Nat × Nat)) (i : Nat) : List Nat :=
  edges.flatMap fun e => (if e.1 = i then [e.2] else []) ++ if e.2 = i then [e.1] else []

theorem scatter_zip_append {ι : Type*} [DecidableEq ι] (a b : List (ι × R)) (i : ι) :
    scatterAdd (a ++ b) i = scatterAdd a i + scatterAdd b i := scatterAdd_append a b i

theorem degree_eq (edges : List (Nat × Nat)) (i : Nat) :
    degree edges i = ((nbrs edges i).length : R) := by
  unfold degree bothWays
  rw [List.map_append, scatterAdd_append]
  induction edges with
  | nil => simp [scatterAdd, nbrs]
  | cons e l ih =>
    simp only [List.map_cons, scatterAdd_cons, Prod.fst_swap]
    have : nbrs (e :: l) i = ((if e.1 = i then [e.2] else []) ++ if e.2 = i then [e.1] else [])
      ++ nbrs l i := by simp [nbrs]
    rw [this, List.length_append, Nat.cast_add, ← ih]
    by_cases h1 : e.1 = i <;> by_cases h2 : e.2 = i <;> simp [h1, h2] <;> ring

theorem laplacian_eq (V : Nat) (edges : List (Nat × Nat)) (i j : Nat) :
    laplacian V edges (i, j) = recipOr ((nbrs edges i).length : R) * ((nbrs edges i).count j : R)
      - if i = j ∧ i < V then 1 else 0 := by
  unfold laplacian
  rw [scatterAdd_append, sub_eq_add_neg]
  congr 1
  · rw [bothWays, List.zip_append (by simp), scatterAdd_append]
    have key : ∀ (l : List (Nat × Nat)) (g : Nat → R),
        scatterAdd (l.zip (l.map fun e => g e.1)) (i, j)
          + scatterAdd ((l.map Prod.swap).zip (l.map fun e => g e.2)) (i, j)
          = g i * ((nbrs l i).count j : R) := by
      intro l g
      induction l with
      | nil => simp [scatterAdd, nbrs]
      | cons e l ih =>
        simp only [List.map_cons, List.zip_cons_cons, scatterAdd_cons]
        have : nbrs (e :: l) i = ((if e.1 = i then [e.2] else []) ++ if e.2 = i then [e.1] else [])
          ++ nbrs l i := by simp [nbrs]
        rw [this, List.count_append, Nat.cast_add, mul_add, ← ih, List.count_append, Nat.cast_add]
        have e1 : (if e = (i, j) then g e.1 else 0)
            = g i * ((List.count j (if e.1 = i then [e.2] else []) : Nat) : R) := by
          obtain ⟨a, b⟩ := e
          by_cases h1 : a = i <;> by_cases h2 : b = j <;> simp [h1, h2]
        have e2 : (if e.swap = (i, j) then g e.2 else 0)
            = g i * ((List.count j (if e.2 = i then [e.1] else []) : Nat) : R) := by
          obtain ⟨a, b⟩ := e
          by_cases h1 : b = i <;> by_cases h2 : a = j <;> simp [h1, h2]
        rw [e1, e2]
        ring
    rw [← degree_eq]
    exact key edges fun v => recipOr (degree edges v)
  · induction V with
    | zero => simp [scatterAdd]
    | succ V ih =>
      rw [List.range_succ, List.map_append, scatterAdd_append, ih, List.map_singleton,
        scatterAdd_cons]
      by_cases h1 : i = j
      · subst h1
        by_cases h2 : V = i
        · subst h2; simp [scatterAdd]
        · by_cases h3 : i < V
          · simp [scatterAdd, h2, h3, show i < V + 1 by omega]
          · simp [scatterAdd, h2, h3, show ¬ i < V + 1 by omega]
      · have : ¬ (V = i ∧ V = j) := fun h => h1 (h.1.symm.trans h.2)
        simp [scatterAdd, h1, this]

/-- `edges_packed` of a mesh: no duplicates and smaller index first. -/
def Simple (edges : List (Nat × Nat)) : Prop := edges.Nodup ∧ ∀ e ∈ edges, e.1 < e.2

/-- `i` and `j` are joined by an edge. -/
def Adj (edges : List (Nat × Nat)) (i j : Nat) : Prop := (i, j) ∈ edges ∨ (j, i) ∈ edges

theorem mem_nbrs {edges : List (Nat × Nat)} {i j : Nat} : j ∈ nbrs edges i ↔ Adj edges i j := by
  unfold nbrs Adj
  rw [List.mem_flatMap]
  constructor
  · rintro ⟨⟨a, b⟩, he, h⟩
    rw [List.mem_append] at h
    rcases h with h | h
    · by_cases h1 : a = i
      · simp only [h1, if_true, List.mem_singleton] at h
        left; subst h; rwa [h1] at he
      · simp [h1] at h
    · by_cases h1 : b = i
      · simp only [h1, if_true, List.mem_singleton] at h
        right; subst h; rwa [h1] at he
      · simp [h1] at h
  · rintro (h | h)
    · exact ⟨_, h, by simp⟩
    · exact ⟨_, h, by simp⟩

theorem nbrs_count_le {edges : List (Nat × Nat)} (hs : Simple edges) (i j : Nat) :
    (nbrs edges i).count j ≤ 1 := by
  obtain ⟨hn, hlt⟩ := hs
  induction edges with
  | nil => simp [nbrs]
  | cons e l ih =>
    rw [List.nodup_cons] at hn
    have hl := ih hn.2 fun e he => hlt e (by simp [he])
    have he := hlt e (by simp)
    have hc : nbrs (e :: l) i = ((if e.1 = i then [e.2] else []) ++ if e.2 = i then [e.1] else [])
      ++ nbrs l i := by simp [nbrs]
    rw [hc, List.count_append, List.count_append]
    by_cases hz : (nbrs l i).count j = 0
    · rw [hz]
      by_cases h1 : e.1 = i <;> by_cases h2 : e.2 = i
      · omega
      · rw [if_pos h1, if_neg h2]; by_cases h3 : e.2 = j <;> simp [h3]
      · rw [if_neg h1, if_pos h2]; by_cases h3 : e.1 = j <;> simp [h3]
      · simp [h1, h2]
    · have hm : j ∈ nbrs l i := List.count_pos_iff.mp (by omega)
      rw [mem_nbrs] at hm
      have c1 : List.count j (if e.1 = i then [e.2] else []) = 0 := by
        by_cases h1 : e.1 = i
        · by_cases h2 : e.2 = j
          · exfalso
            have : e = (i, j) := by obtain ⟨a, b⟩ := e; simp_all
            rcases hm with hm | hm
            · exact hn.1 (this ▸ hm)
            · have := hlt _ (List.mem_cons_of_mem _ hm); simp only at this; omega
          · simp [h1, h2]
        · simp [h1]
      have c2 : List.count j (if e.2 = i then [e.1] else []) = 0 := by
        by_cases h1 : e.2 = i
        · by_cases h2 : e.1 = j
          · exfalso
            have : e = (j, i) := by obtain ⟨a, b⟩ := e; simp_all
            rcases hm with hm | hm
            · have := hlt _ (List.mem_cons_of_mem _ hm); simp only at this; omega
            · exact hn.1 (this ▸ hm)
          · simp [h1, h2]
        · simp [h1]
      omega

/-- **C44 (uniform).** For the edges of a mesh: -1 on the diagonal, `1/deg(i)` on edges, 0
elsewhere, where `deg(i)` is the number of neighbours. -/
theorem laplacian_entries {V : Nat} {edges : List (Nat × Nat)} (hs : Simple edges) {i : Nat}
    (hi : i < V) (j : Nat) :
    (i = j → laplacian V edges (i, j) = (-1 : R)) ∧
    (i ≠ j → Adj edges i j → laplacian V edges (i, j) = ((nbrs edges i).length : R)⁻¹) ∧
    (i ≠ j → ¬ Adj edges i j → laplacian V edges (i, j) = (0 : R)) ∧
    (nbrs edges i).Nodup := by
  have hself : ∀ i, ¬ Adj edges i i := by
    rintro i (h | h) <;> exact absurd (hs.2 _ h) (lt_irrefl _)
  have hnm : ∀ j, ¬ Adj edges i j → (nbrs edges i).count j = 0 := fun j h =>
    List.count_eq_zero.mpr fun hm => h (mem_nbrs.mp hm)
  refine ⟨?_, ?_, ?_, ?_⟩
  · rintro rfl
    rw [laplacian_eq, hnm i (hself i)]
    simp [hi]
  · intro hij ha
    have hm := mem_nbrs.mpr ha
    have hc : (nbrs edges i).count j = 1 := by
      have := nbrs_count_le hs i j
      have := List.count_pos_iff.mpr hm
      omega
    have hpos : (0 : R) < ((nbrs edges i).length : R) := by
      exact_mod_cast List.length_pos_of_mem hm
    rw [laplacian_eq, hc, recipOr, if_pos hpos]
    simp [hij]
  · intro hij ha
    rw [laplacian_eq, hnm j ha]
    simp [hij]
  · exact List.nodup_iff_count_le_one.mpr fun a => nbrs_count_le hs i a

theorem sum_count (V : Nat) (l : List Nat) (hl : ∀ x ∈ l, x < V) (f : Nat → R) :
    ((List.range V).map fun j => (l.count j : R) * f j).sum = (l.map f).sum := by
  induction l with
  | nil => simp
  | cons a l ih =>
    have h1 : ((List.range V).map fun j => ((a :: l).count j : R) * f j)
        = (List.range V).map fun j => (l.count j : R) * f j + if j = a then f j else 0 := by
      apply List.map_congr_left
      intro j _
      rw [List.count_cons]
      by_cases h : a = j
      · subst h; simp; ring
      · have h' : ¬ j = a := fun e => h e.symm
        simp [h, h']
    rw [h1, List.sum_map_add, ih fun x hx => hl x (by simp [hx]), List.map_cons, List.sum_cons,
      add_comm]
    congr 1
    have ha : a < V := hl a (by simp)
    clear h1 ih hl
    induction V with
    | zero => omega
    | succ V ih =>
      rw [List.range_succ, List.map_append, List.sum_append]
      by_cases h : a = V
      · subst h
        have : ((List.range a).map fun i => if i = a then f i else 0)
            = (List.range a).map fun _ => (0:R) := by
          apply List.map_congr_left
          intro i hi
          rw [if_neg (by rw [List.mem_range] at hi; omega)]
        rw [this]; simp
      · rw [ih (by omega)]
        have : ¬ V = a := fun e => h e.symm
        simp [this]

/-- **C44 (smoothing).** For any graph (multi-edges included), applying the matrix to a function
`x` on the vertices gives, at `i`, the mean of `x` over the neighbours minus `x i`; in particular
rows sum to 0, except for isolated vertices, whose row is `-1` on the diagonal only. -/
theorem laplacian_apply {V : Nat} {edges : List (Nat × Nat)} (hv : ∀ e ∈ edges, e.1 < V ∧ e.2 < V)
    {i : Nat} (hi : i < V) (x : Nat → R) :
    ((List.range V).map fun j => laplacian V edges (i, j) * x j).sum
      = ((nbrs edges i).map x).sum / ((nbrs edges i).length : R) - x i := by
  have hlt : ∀ j ∈ nbrs edges i, j < V := by
    intro j hj
    rcases mem_nbrs.mp hj with h | h
    · exact (hv _ h).2
    · exact (hv _ h).1
  have h1 : ((List.range V).map fun j => laplacian V edges (i, j) * x j)
      = (List.range V).map fun j => recipOr ((nbrs edges i).length : R)
        * (((nbrs edges i).count j : R) * x j) + -(([i].count j : R) * x j) := by
    apply List.map_congr_left
    intro j _
    rw [laplacian_eq, List.count_singleton]
    by_cases h : i = j
    · subst h; simp [hi]; ring
    · simp [h]; ring
  rw [h1, List.sum_map_add, List.sum_map_mul_left, sum_count V _ hlt,
    show ((List.range V).map fun j => -(([i].count j : R) * x j))
      = ((List.range V).map fun j => ([i].count j : R) * x j).map fun y => -y by
        rw [List.map_map]; rfl]
  have hneg : ∀ l : List R, (l.map fun y => -y).sum = -l.sum := by
    intro l
    induction l with
    | nil => simp
    | cons a l ih => simp [ih]; ring
  rw [hneg, sum_count V [i] (by simpa using hi)]
  simp only [List.map_cons, List.map_nil, List.sum_cons, List.sum_nil, add_zero]
  rw [← sub_eq_add_neg]
  congr 1
  unfold recipOr
  by_cases h0 : (nbrs edges i) = []
  · rw [h0]; simp
  · have hpos : (0 : R) < ((nbrs edges i).length : R) := by
      exact_mod_cast List.length_pos_iff.mpr h0
    rw [if_pos hpos]; ring

theorem laplacian_rowSum {V : Nat} {edges : List (Nat × Nat)} (hv : ∀ e ∈ edges, e.1 < V ∧ e.2 < V)
    {i : Nat} (hi : i < V) :
    ((List.range V).map fun j => laplacian V edges (i, j)).sum
      = (if nbrs edges i = [] then -1 else 0 : R) := by
  have h := laplacian_apply hv hi (fun _ => (1 : R))
  simp only [mul_one] at h
  rw [h]
  by_cases h0 : nbrs edges i = []
  · simp [h0]
  · have hne : ((nbrs edges i).length : R) ≠ 0 := by
      have := List.length_pos_iff.mpr h0
      exact_mod_cast this.ne'
    simp [h0]

end Uniform

/-! ### Cotangent Laplacian -/

noncomputable section

/-- Specification: cotangent of the angle at `p` in the triangle `p q r`: cosine over sine, i.e.
dot product over length of the cross product of the two sides. -/
def cotAt (p q r : V3 ℝ) : ℝ :=
  V3.dot (q - p) (r - p) / norm (V3.cross (q - p) (r - p))

theorem normSq_nonneg (a : V3 ℝ) : 0 ≤ V3.normSq a := by
  simp only [V3.normSq, V3.dot]; nlinarith [mul_self_nonneg a.x, mul_self_nonneg a.y, mul_self_nonneg a.z]

theorem norm_sq (a : V3 ℝ) : norm a * norm a = V3.normSq a := Real.mul_self_sqrt (normSq_nonneg a)

/-- Heron's formula gives the square of half the length of the cross product. -/
theorem heron_eq (v0 v1 v2 : V3 ℝ) :
    heron (norm (v1 - v2)) (norm (v0 - v2)) (norm (v0 - v1))
      = V3.normSq (V3.cross (v1 - v0) (v2 - v0)) / 4 := by
  have hA := norm_sq (v1 - v2)
  have hB := norm_sq (v0 - v2)
  have hC := norm_sq (v0 - v1)
  set A := norm (v1 - v2)
  set B := norm (v0 - v2)
  set C := norm (v0 - v1)
  have : heron A B C = (2 * (A * A) * (B * B) + 2 * (B * B) * (C * C) + 2 * (C * C) * (A * A)
      - (A * A) * (A * A) - (B * B) * (B * B) - (C * C) * (C * C)) / 16 := by
    simp only [heron]; ring
  rw [this, hA, hB, hC]
  simp only [V3.normSq, V3.dot, V3.cross, V3.sub_x, V3.sub_y, V3.sub_z]
  ring

/-- The area is the true area when its square is at least `eps`, and `sqrt eps` otherwise. -/
theorem area_eq {eps : ℝ} (v0 v1 v2 : V3 ℝ) :
    (eps ≤ V3.normSq (V3.cross (v1 - v0) (v2 - v0)) / 4 →
      area eps v0 v1 v2 = norm (V3.cross (v1 - v0) (v2 - v0)) / 2) ∧
    (V3.normSq (V3.cross (v1 - v0) (v2 - v0)) / 4 ≤ eps → area eps v0 v1 v2 = Real.sqrt eps) := by
  constructor
  · intro h
    rw [area, heron_eq, max_eq_left h, norm]
    rw [show (V3.normSq (V3.cross (v1 - v0) (v2 - v0)) / 4)
      = V3.normSq (V3.cross (v1 - v0) (v2 - v0)) / 2 ^ 2 by ring, Real.sqrt_div' _ (by norm_num),
      Real.sqrt_sq (by norm_num)]
  · intro h
    rw [area, heron_eq, max_eq_right h]

theorem norm_cross_corner (v0 v1 v2 : V3 ℝ) :
    norm (V3.cross (v2 - v1) (v0 - v1)) = norm (V3.cross (v1 - v0) (v2 - v0)) := by
  unfold norm
  congr 1
  simp only [V3.normSq, V3.dot, V3.cross, V3.sub_x, V3.sub_y, V3.sub_z]
  ring

/-- **C44 (cotangents).** For a face whose squared area is at least `eps > 0`, the three numbers
are the cotangents of the angles at its three corners. -/
theorem cots_eq {eps : ℝ} (v0 v1 v2 : V3 ℝ)
    (h : eps ≤ V3.normSq (V3.cross (v1 - v0) (v2 - v0)) / 4) :
    cots eps v0 v1 v2 = (cotAt v0 v1 v2, cotAt v1 v2 v0, cotAt v2 v0 v1) := by
  have ha := (area_eq v0 v1 v2).1 h
  have h1 : norm (V3.cross (v2 - v1) (v0 - v1)) = norm (V3.cross (v1 - v0) (v2 - v0)) :=
    norm_cross_corner v0 v1 v2
  have h2 : norm (V3.cross (v0 - v2) (v1 - v2)) = norm (V3.cross (v1 - v0) (v2 - v0)) := by
    rw [norm_cross_corner v1 v2 v0, norm_cross_corner]
  unfold cots cotAt
  simp only [norm_sq]
  rw [ha, h1, h2]
  set n := norm (V3.cross (v1 - v0) (v2 - v0))
  have d0 : V3.normSq (v0 - v2) + V3.normSq (v0 - v1) - V3.normSq (v1 - v2)
      = 2 * V3.dot (v1 - v0) (v2 - v0) := by
    simp only [V3.normSq, V3.dot, V3.sub_x, V3.sub_y, V3.sub_z]; ring
  have d1 : V3.normSq (v1 - v2) + V3.normSq (v0 - v1) - V3.normSq (v0 - v2)
      = 2 * V3.dot (v2 - v1) (v0 - v1) := by
    simp only [V3.normSq, V3.dot, V3.sub_x, V3.sub_y, V3.sub_z]; ring
  have d2 : V3.normSq (v1 - v2) + V3.normSq (v0 - v2) - V3.normSq (v0 - v1)
      = 2 * V3.dot (v0 - v2) (v1 - v2) := by
    simp only [V3.normSq, V3.dot, V3.sub_x, V3.sub_y, V3.sub_z]; ring
  rw [d0, d1, d2]
  have key : ∀ d : ℝ, 2 * d / (n / 2) / 4 = d / n := by
    intro d
    rcases eq_or_ne n 0 with h0 | h0
    · rw [h0]; simp
    · field_simp; ring
  rw [key, key, key]

/-- **C44 (entries).** The `(i, j)` entry of the cotangent matrix is the sum, over the faces and
their corners, of the cotangent at the corner when the opposite side joins `i` and `j` (in either
direction). -/
theorem cotLaplacian_entry (eps : ℝ) (verts : Nat → V3 ℝ) (faces : List Face) (i j : Nat) :
    cotLaplacian eps verts faces (i, j) = (faces.map fun f =>
      let c := cots eps (verts f.1) (verts f.2.1) (verts f.2.2)
      let side := fun (a b : Nat) => (if a = i ∧ b = j then (1 : ℝ) else 0)
        + if a = j ∧ b = i then 1 else 0
      side f.2.1 f.2.2 * c.1 + side f.2.2 f.1 * c.2.1 + side f.1 f.2.1 * c.2.2).sum := by
  unfold cotLaplacian addT cotEntries
  induction faces with
  | nil => simp [scatterAdd]
  | cons f l ih =>
    simp only [List.flatMap_cons, scatterAdd_append, List.map_cons, List.sum_cons]
    rw [← ih]
    simp only [scatterAdd_cons, Prod.swap_prod_mk, Prod.mk.injEq]
    have z : ∀ p : Nat × Nat, scatterAdd ([] : List ((Nat × Nat) × ℝ)) p = 0 := fun _ => rfl
    simp only [z]
    have one : ∀ (P : Prop) [Decidable P] (x : ℝ), (if P then x else 0) = (if P then 1 else 0) * x := by
      intro P _ x; split <;> simp
    simp only [one (_ ∧ _) (cots _ _ _ _).1, one (_ ∧ _) (cots _ _ _ _).2.1,
      one (_ ∧ _) (cots _ _ _ _).2.2]
    ring

/-- **C44 (symmetric).** -/
theorem cotLaplacian_symm (eps : ℝ) (verts : Nat → V3 ℝ) (faces : List Face) (i j : Nat) :
    cotLaplacian eps verts faces (i, j) = cotLaplacian eps verts faces (j, i) := by
  simp [cotLaplacian, addT, add_comm]

/-- **C44 (two triangles).** On an edge `(i, j)` shared by exactly two faces with opposite corners
`a`, `b`, the entry is `cot a + cot b`. -/
theorem cotLaplacian_two {eps : ℝ} (verts : Nat → V3 ℝ) {a b i j : Nat}
    (hd : [a, b, i, j].Nodup)
    (h1 : eps ≤ V3.normSq (V3.cross (verts i - verts a) (verts j - verts a)) / 4)
    (h2 : eps ≤ V3.normSq (V3.cross (verts j - verts b) (verts i - verts b)) / 4)
    (rest : List Face) (hr : ∀ f ∈ rest, ¬ (i ∈ [f.1, f.2.1, f.2.2] ∧ j ∈ [f.1, f.2.1, f.2.2])) :
    cotLaplacian eps verts ((a, i, j) :: (b, j, i) :: rest) (i, j)
      = cotAt (verts a) (verts i) (verts j) + cotAt (verts b) (verts j) (verts i) := by
  rw [cotLaplacian_entry]
  simp only [List.map_cons, List.sum_cons]
  rw [cots_eq _ _ _ h1, cots_eq _ _ _ h2]
  simp only [List.nodup_cons, List.mem_cons, List.not_mem_nil, or_false, not_or] at hd
  obtain ⟨⟨hab, hai, haj⟩, ⟨hbi, hbj⟩, hij, _⟩ := hd
  have hji : ¬ j = i := fun h => hij h.symm
  have hrest : ∀ (l : List Face), (∀ f ∈ l, ¬ (i ∈ [f.1, f.2.1, f.2.2] ∧ j ∈ [f.1, f.2.1, f.2.2])) →
      (l.map fun f =>
      (((if f.2.1 = i ∧ f.2.2 = j then (1:ℝ) else 0) + if f.2.1 = j ∧ f.2.2 = i then 1 else 0)
        * (cots eps (verts f.1) (verts f.2.1) (verts f.2.2)).1
      + ((if f.2.2 = i ∧ f.1 = j then (1:ℝ) else 0) + if f.2.2 = j ∧ f.1 = i then 1 else 0)
        * (cots eps (verts f.1) (verts f.2.1) (verts f.2.2)).2.1
      + ((if f.1 = i ∧ f.2.1 = j then (1:ℝ) else 0) + if f.1 = j ∧ f.2.1 = i then 1 else 0)
        * (cots eps (verts f.1) (verts f.2.1) (verts f.2.2)).2.2)).sum = 0 := by
    intro l hl
    induction l with
    | nil => rfl
    | cons f l ih =>
      rw [List.map_cons, List.sum_cons, ih fun g hg => hl g (by simp [hg])]
      have hf := hl f (by simp)
      simp only [List.mem_cons, List.not_mem_nil, or_false] at hf
      have n1 : ¬ (f.2.1 = i ∧ f.2.2 = j) := fun h => hf ⟨by simp [h.1], by simp [h.2]⟩
      have n2 : ¬ (f.2.1 = j ∧ f.2.2 = i) := fun h => hf ⟨by simp [h.2], by simp [h.1]⟩
      have n3 : ¬ (f.2.2 = i ∧ f.1 = j) := fun h => hf ⟨by simp [h.1], by simp [h.2]⟩
      have n4 : ¬ (f.2.2 = j ∧ f.1 = i) := fun h => hf ⟨by simp [h.2], by simp [h.1]⟩
      have n5 : ¬ (f.1 = i ∧ f.2.1 = j) := fun h => hf ⟨by simp [h.1], by simp [h.2]⟩
      have n6 : ¬ (f.1 = j ∧ f.2.1 = i) := fun h => hf ⟨by simp [h.2], by simp [h.1]⟩
      simp [n1, n2, n3, n4, n5, n6]
  rw [hrest rest hr]
  simp [hij, hji, hai, haj, hbi, hbj]

/-- **C44 (areas).** `inv_areas` is the reciprocal of the sum of the areas of the incident faces
(0 for a vertex in no face). -/
theorem invAreas_eq (eps : ℝ) (verts : Nat → V3 ℝ) (faces : List Face) (v : Nat) :
    invAreas eps verts faces v = ((faces.map fun f =>
      (([f.1, f.2.1, f.2.2].count v : Nat) : ℝ) * area eps (verts f.1) (verts f.2.1) (verts f.2.2)).sum)⁻¹
    := by
  have hs : scatterAdd (faces.flatMap fun f =>
      let ar := area eps (verts f.1) (verts f.2.1) (verts f.2.2)
      [(f.1, ar), (f.2.1, ar), (f.2.2, ar)]) v = (faces.map fun f =>
      (([f.1, f.2.1, f.2.2].count v : Nat) : ℝ) * area eps (verts f.1) (verts f.2.1) (verts f.2.2)).sum := by
    induction faces with
    | nil => rfl
    | cons f l ih =>
      simp only [List.flatMap_cons, scatterAdd_append, List.map_cons, List.sum_cons]
      rw [ih]
      congr 1
      simp only [scatterAdd_cons, List.count_cons, List.count_nil]
      have z : scatterAdd ([] : List (Nat × ℝ)) v = 0 := rfl
      rw [z]
      by_cases h1 : f.1 = v <;> by_cases h2 : f.2.1 = v <;> by_cases h3 : f.2.2 = v <;>
        simp [h1, h2, h3] <;> ring
  have hnn : 0 ≤ (faces.map fun f =>
      (([f.1, f.2.1, f.2.2].count v : Nat) : ℝ) * area eps (verts f.1) (verts f.2.1) (verts f.2.2)).sum := by
    apply List.sum_nonneg
    intro x hx
    obtain ⟨f, _, rfl⟩ := List.mem_map.mp hx
    exact mul_nonneg (Nat.cast_nonneg _) (Real.sqrt_nonneg _)
  unfold invAreas
  simp only at hs ⊢
  rw [hs]
  split
  · rfl
  · rename_i h
    have : (faces.map fun f =>
      (([f.1, f.2.1, f.2.2].count v : Nat) : ℝ) * area eps (verts f.1) (verts f.2.1) (verts f.2.2)).sum = 0 :=
      le_antisymm (not_lt.mp h) hnn
    rw [this, inv_zero]

/-! ### Norm Laplacian -/

/-- **C44 (norm).** The `(i, j)` entry is the sum of `1 / (‖v_i - v_j‖ + eps)` over the edges
joining `i` and `j`; the matrix is symmetric and non-negative. -/
theorem normLaplacian_entry (eps : ℝ) (verts : Nat → V3 ℝ) (edges : List (Nat × Nat)) (i j : Nat) :
    normLaplacian eps verts edges (i, j)
      = ((edges.count (i, j) + edges.count (j, i) : Nat) : ℝ) * (norm (verts i - verts j) + eps)⁻¹ := by
  have hsym : norm (verts j - verts i) = norm (verts i - verts j) := by
    unfold norm; congr 1
    simp only [V3.normSq, V3.dot, V3.sub_x, V3.sub_y, V3.sub_z]; ring
  unfold normLaplacian addT
  induction edges with
  | nil => simp [scatterAdd]
  | cons e l ih =>
    simp only [List.map_cons, scatterAdd_cons, Prod.swap_prod_mk] at ih ⊢
    have e1 : (if e = (i, j) then (norm (verts e.1 - verts e.2) + eps)⁻¹ else 0)
        = (if e = (i, j) then (norm (verts i - verts j) + eps)⁻¹ else 0) := by
      by_cases h : e = (i, j)
      · subst h; rfl
      · simp [h]
    have e2 : (if e = (j, i) then (norm (verts e.1 - verts e.2) + eps)⁻¹ else 0)
        = (if e = (j, i) then (norm (verts i - verts j) + eps)⁻¹ else 0) := by
      by_cases h : e = (j, i)
      · subst h; simp [hsym]
      · simp [h]
    rw [e1, e2, List.count_cons, List.count_cons]
    have : ((List.count (i, j) l + (if (e == (i, j)) = true then 1 else 0)
        + (List.count (j, i) l + if (e == (j, i)) = true then 1 else 0) : Nat) : ℝ)
        = ((List.count (i, j) l + List.count (j, i) l : Nat) : ℝ)
          + ((if e = (i, j) then 1 else 0) + if e = (j, i) then 1 else 0) := by
      simp only [beq_iff_eq]; push_cast; ring
    have one : ∀ (P : Prop) [Decidable P] (x : ℝ), (if P then x else 0) = (if P then 1 else 0) * x := by
      intro P _ x; split <;> simp
    rw [this, add_mul, ← ih, one (e = (i, j)) ((norm (verts i - verts j) + eps)⁻¹),
      one (e = (j, i)) ((norm (verts i - verts j) + eps)⁻¹)]
    ring

theorem normLaplacian_symm (eps : ℝ) (verts : Nat → V3 ℝ) (edges : List (Nat × Nat)) (i j : Nat) :
    normLaplacian eps verts edges (i, j) = normLaplacian eps verts edges (j, i) := by
  simp [normLaplacian, addT, add_comm]

end

/-! ### Concrete cases -/

def exEdges : List (Nat × Nat) := [(0, 1), (0, 2), (1, 2), (2, 3)]

theorem exEdges_simple : Simple exEdges := by unfold Simple; decide
example : nbrs exEdges 2 = [0, 1, 3] := by decide
example : (List.range 4).map (fun j => laplacian 5 exEdges (2, j)) = [1/3, 1/3, -1, (1/3 : ℚ)] := by
  decide +kernel
/-- an isolated vertex -/
example : (List.range 5).map (fun j => laplacian 5 exEdges (4, j)) = [0, 0, 0, 0, (-1 : ℚ)] := by
  decide +kernel
/-- a right angle has cotangent 0 -/
example : cotAt ⟨0, 0, 0⟩ ⟨1, 0, 0⟩ ⟨0, 2, 0⟩ = 0 := by
  simp [cotAt, V3.dot]

end P3D.Laplacian
