/-
`ops/mesh_filtering.py`: `taubin_smoothing`.

Simplifications: real arithmetic; a vertex that is not a number is `none`.  The sparse matrix `L` is represented by its
stored entries: entry `(i, j)` of an edge and its transpose; products and row sums run over the stored entries only, so a
vertex that is not a number affects only the rows of its neighbours.  The result is a new `Meshes` without textures; its
vertices and faces are returned as lists.
-/
import Verif.Subdivide
import Verif.Laplacian
import Mathlib.Analysis.Real.Sqrt
import Mathlib.Algebra.Module.LinearMap.Basic
import Mathlib.Algebra.Order.BigOperators.Group.List
import Mathlib.Tactic.Positivity
import Mathlib.Tactic.NormNum

set_option linter.unusedSectionVars false

namespace P3D.Taubin

open P3D.Meshes P3D.Subdivide P3D.StructUtils

/-! ## Model -/

/-- A row of the vertex tensor. -/
abbrev Row := Option (V3 ℝ)

/-- `verts[i]`. -/
def rowAt (v : List Row) (i : Int) : Row := (look v i).join

noncomputable section

/-- Weight of an edge in `norm_laplacian` (`laplacian_matrices.py:160-166`). -/
def weight (eps : ℝ) (a b : V3 ℝ) : ℝ := (Laplacian.norm (a - b) + eps)⁻¹

/-- The stored entries of row `i` of `L` (`laplacian_matrices.py:168-178`): the edge and the other end point. -/
def rowEntries (edges : List (Int × Int)) (i : Int) : List ((Int × Int) × Int) :=
  (edges.filter fun e => e.1 == i).map (fun e => (e, e.2)) ++ (edges.filter fun e => e.2 == i).map (fun e => (e, e.1))

/-- A stored entry with its value and the row of `verts` it is multiplied with. -/
def entry (eps : ℝ) (v : List Row) (q : (Int × Int) × Int) : Option (ℝ × V3 ℝ) := do
  let a ← rowAt v q.1.1
  let b ← rowAt v q.1.2
  let y ← rowAt v q.2
  pure (weight eps a b, y)

/-- `(1 - c) * x + c * mm / total_weight`, `0 / 0` if the row has no entries. -/
def blend (c : ℝ) (x : V3 ℝ) (ws : List (ℝ × V3 ℝ)) : Row :=
  let tot := (ws.map Prod.fst).sum
  if tot = 0 then none else some ((1 - c) • x + tot⁻¹ • (c • (ws.map fun q => q.1 • q.2).sum))

/-- One row of `mesh_filtering.py:48-50` (or `52-54`). -/
def smoothRow (eps c : ℝ) (edges : List (Int × Int)) (v : List Row) (i : Nat) : Row := do
  let x ← rowAt v i
  let ws ← (rowEntries edges i).mapM (entry eps v)
  blend c x ws

/-- `mesh_filtering.py:48-50` (or `52-54`). -/
def smooth (eps c : ℝ) (edges : List (Int × Int)) (v : List Row) : List Row :=
  (List.range v.length).map (smoothRow eps c edges v)

/-- The loop `mesh_filtering.py:47-54`. -/
def iter (eps lam mu : ℝ) (edges : List (Int × Int)) : Nat → List Row → List Row
  | 0, v => v
  | n + 1, v => iter eps lam mu edges n (smooth eps mu edges (smooth eps lam edges v))

/-- `taubin_smoothing` (`mesh_filtering.py:22-60`) on the lists of vertices and faces. -/
def taubin (eps lam mu : ℝ) (numIter : Nat) (vs : List (List (V3 ℝ))) (fs : List (List Face)) :
    Option (List (List Row) × List (List Face)) := do
  let a : Abs (V3 ℝ) := Abs.ofLists 0 vs fs
  let edges := edgesOf a.vertsPacked.length a.facesPacked
  let l ← splitRows (iter eps lam mu edges numIter (a.vertsPacked.map some)) (vs.map List.length)
  pure (l, fs)

/-! ## Batches -/

/-- Smoothing of a single mesh. -/
def one (eps lam mu : ℝ) (numIter : Nat) (v : List (V3 ℝ)) (f : List Face) : List Row :=
  iter eps lam mu (edgesOf v.length f) numIter (v.map some)

theorem length_smooth (eps c : ℝ) (edges : List (Int × Int)) (v : List Row) : (smooth eps c edges v).length = v.length := by
  simp [smooth]

theorem length_iter (eps lam mu : ℝ) (edges : List (Int × Int)) (n : Nat) (v : List Row) :
    (iter eps lam mu edges n v).length = v.length := by
  induction n generalizing v with
  | zero => rfl
  | succ n ih => rw [iter, ih, length_smooth, length_smooth]

/-- All end points of the edges are rows. -/
def InR (n : Nat) (edges : List (Int × Int)) : Prop := ∀ e ∈ edges, 0 ≤ e.1 ∧ e.1 < n ∧ 0 ≤ e.2 ∧ e.2 < n

theorem rowAt_left (B C : List Row) (i : Int) (h0 : 0 ≤ i) (h1 : i < B.length) : rowAt (B ++ C) i = rowAt B i := by
  unfold rowAt
  rw [look_of_nonneg _ _ h0, look_of_nonneg _ _ h0, List.getElem?_append_left (by omega)]

theorem rowAt_right (B C : List Row) (i : Int) (h0 : 0 ≤ i) : rowAt (B ++ C) (i + B.length) = rowAt C i := by
  unfold rowAt
  rw [look_of_nonneg _ _ h0, look_of_nonneg _ _ (by omega), List.getElem?_append_right (by omega)]
  congr 2
  omega

theorem mapM_congr_of {X Y Z : Type} (l : List X) (m : List Y) (f : X → Option Z) (g : Y → Option Z)
    (h : l.map f = m.map g) : l.mapM f = m.mapM g := by
  induction l generalizing m with
  | nil => cases m with
    | nil => rfl
    | cons b m => simp at h
  | cons a l ih =>
    cases m with
    | nil => simp at h
    | cons b m =>
      simp only [List.map_cons, List.cons.injEq] at h
      rw [List.mapM_cons, List.mapM_cons, h.1, ih m h.2]

theorem rowEntries_append (E E' : List (Int × Int)) (i : Int) :
    (rowEntries (E ++ E') i).Perm (rowEntries E i ++ rowEntries E' i) := by
  unfold rowEntries
  simp only [List.filter_append, List.map_append]
  generalize (E.filter fun e => e.1 == i).map (fun e => (e, e.2)) = a
  generalize (E'.filter fun e => e.1 == i).map (fun e => (e, e.2)) = b
  generalize (E.filter fun e => e.2 == i).map (fun e => (e, e.1)) = c
  generalize (E'.filter fun e => e.2 == i).map (fun e => (e, e.1)) = d
  rw [List.append_assoc, List.append_assoc]
  refine List.Perm.append_left a ?_
  rw [← List.append_assoc, ← List.append_assoc]
  exact List.Perm.append_right d List.perm_append_comm

theorem entries_left (E E' : List (Int × Int)) (n : Nat) (i : Nat) (hi : i < n)
    (hE' : ∀ e ∈ E', (n : Int) ≤ e.1 ∧ (n : Int) ≤ e.2) : rowEntries (E ++ E') i = rowEntries E i := by
  unfold rowEntries
  have h1 : (E'.filter fun e => e.1 == (i : Int)) = [] := by
    rw [List.filter_eq_nil_iff]; intro e he; have := hE' e he; simp only [beq_iff_eq]; omega
  have h2 : (E'.filter fun e => e.2 == (i : Int)) = [] := by
    rw [List.filter_eq_nil_iff]; intro e he; have := hE' e he; simp only [beq_iff_eq]; omega
  simp only [List.filter_append, h1, h2, List.append_nil]

theorem entries_right (E E' : List (Int × Int)) (n : Nat) (i : Nat) (hE : InR n E) :
    rowEntries (E ++ E'.map (shiftE n)) ((n + i : Nat) : Int)
      = (rowEntries E' i).map fun q => (shiftE n q.1, q.2 + (n : Int)) := by
  unfold rowEntries
  have h1 : (E.filter fun e => e.1 == ((n + i : Nat) : Int)) = [] := by
    rw [List.filter_eq_nil_iff]; intro e he; have := hE e he; simp only [beq_iff_eq]; omega
  have h2 : (E.filter fun e => e.2 == ((n + i : Nat) : Int)) = [] := by
    rw [List.filter_eq_nil_iff]; intro e he; have := hE e he; simp only [beq_iff_eq]; omega
  simp only [List.filter_append, h1, h2, List.nil_append, List.filter_map, List.map_append, List.map_map]
  have f1 : ((fun e : Int × Int => e.1 == ((n + i : Nat) : Int)) ∘ shiftE n) = fun e => e.1 == (i : Int) := by
    funext e
    rw [Bool.eq_iff_iff]
    simp only [Function.comp, shiftE, beq_iff_eq]; push_cast; omega
  have f2 : ((fun e : Int × Int => e.2 == ((n + i : Nat) : Int)) ∘ shiftE n) = fun e => e.2 == (i : Int) := by
    funext e
    rw [Bool.eq_iff_iff]
    simp only [Function.comp, shiftE, beq_iff_eq]; push_cast; omega
  rw [f1, f2]
  rfl

theorem mem_entries {edges : List (Int × Int)} {i : Int} {q : (Int × Int) × Int} (h : q ∈ rowEntries edges i) :
    q.1 ∈ edges ∧ ((q.1.1 = i ∧ q.2 = q.1.2) ∨ (q.1.2 = i ∧ q.2 = q.1.1)) := by
  unfold rowEntries at h
  simp only [List.mem_append, List.mem_map, List.mem_filter, beq_iff_eq] at h
  rcases h with ⟨e, ⟨he, h⟩, rfl⟩ | ⟨e, ⟨he, h⟩, rfl⟩
  · exact ⟨he, Or.inl ⟨h, rfl⟩⟩
  · exact ⟨he, Or.inr ⟨h, rfl⟩⟩

/-- Smoothing two meshes in one packed tensor. -/
theorem smooth_append (eps c : ℝ) (E E' : List (Int × Int)) (B C : List Row) (hE : InR B.length E) (hE' : InR C.length E') :
    smooth eps c (E ++ E'.map (shiftE B.length)) (B ++ C) = smooth eps c E B ++ smooth eps c E' C := by
  have hs : ∀ e ∈ E'.map (shiftE B.length), (B.length : Int) ≤ e.1 ∧ (B.length : Int) ≤ e.2 := by
    intro e he
    obtain ⟨q, hq, rfl⟩ := List.mem_map.mp he
    have := hE' q hq
    simp only [shiftE]; omega
  have left : ∀ i < B.length, smoothRow eps c (E ++ E'.map (shiftE B.length)) (B ++ C) i = smoothRow eps c E B i := by
    intro i hi
    unfold smoothRow
    rw [rowAt_left _ _ _ (by omega) (by omega), entries_left _ _ _ _ hi hs]
    have : (rowEntries E i).mapM (entry eps (B ++ C)) = (rowEntries E i).mapM (entry eps B) := by
      apply mapM_congr_of
      apply List.map_congr_left
      intro q hq
      obtain ⟨hm, hcase⟩ := mem_entries hq
      have hr := hE _ hm
      unfold entry
      rw [rowAt_left _ _ _ hr.1 hr.2.1, rowAt_left _ _ _ hr.2.2.1 hr.2.2.2, rowAt_left B C q.2]
      · rcases hcase with h | h <;> omega
      · rcases hcase with h | h <;> omega
    rw [this]
  have right : ∀ i < C.length, smoothRow eps c (E ++ E'.map (shiftE B.length)) (B ++ C) (B.length + i) = smoothRow eps c E' C i := by
    intro i hi
    unfold smoothRow
    have h0 : rowAt (B ++ C) ((B.length + i : Nat) : Int) = rowAt C i := by
      rw [show ((B.length + i : Nat) : Int) = (i : Int) + B.length by push_cast; ring, rowAt_right _ _ _ (by omega)]
    rw [h0, entries_right _ _ _ _ hE]
    have : ((rowEntries E' i).map fun q => (shiftE B.length q.1, q.2 + (B.length : Int))).mapM (entry eps (B ++ C))
        = (rowEntries E' i).mapM (entry eps C) := by
      apply mapM_congr_of
      rw [List.map_map]
      apply List.map_congr_left
      intro q hq
      obtain ⟨hm, hcase⟩ := mem_entries hq
      have hr := hE' _ hm
      simp only [Function.comp, entry, shiftE]
      rw [rowAt_right _ _ _ hr.1, rowAt_right _ _ _ hr.2.2.1, rowAt_right B C q.2]
      rcases hcase with h | h <;> omega
    rw [this]
  unfold smooth
  rw [List.length_append, List.range_add, List.map_append, List.map_map]
  congr 1
  · apply List.map_congr_left
    intro i hi
    exact left i (List.mem_range.mp hi)
  · apply List.map_congr_left
    intro i hi
    exact right i (List.mem_range.mp hi)

/-- The loop on two meshes. -/
theorem iter_append (eps lam mu : ℝ) (n : Nat) (E E' : List (Int × Int)) (B C : List Row) (hE : InR B.length E)
    (hE' : InR C.length E') : iter eps lam mu (E ++ E'.map (shiftE B.length)) n (B ++ C)
      = iter eps lam mu E n B ++ iter eps lam mu E' n C := by
  induction n generalizing B C with
  | zero => rfl
  | succ n ih =>
    rw [iter, smooth_append _ _ _ _ _ _ hE hE']
    have h1 : B.length = (smooth eps lam E B).length := (length_smooth ..).symm
    rw [h1, smooth_append _ _ _ _ _ _ (by rw [← h1]; exact hE) (by rw [length_smooth]; exact hE')]
    have h2 : (smooth eps lam E B).length = (smooth eps mu E (smooth eps lam E B)).length := (length_smooth ..).symm
    rw [h2, ih _ _ (by rw [← h2, ← h1]; exact hE) (by rw [length_smooth, length_smooth]; exact hE')]
    rfl

/-- Edges of the meshes in packed numbering. -/
def joinE : List (List (V3 ℝ)) → List (List Face) → List (Int × Int)
  | v :: vs, f :: fs => edgesOf v.length f ++ (joinE vs fs).map (shiftE v.length)
  | _, _ => []

theorem allEdges_joinE (o eo : Nat) (vs : List (List (V3 ℝ))) (fs : List (List Face)) :
    allEdges (recs o eo vs fs) = (joinE vs fs).map (shiftE o) := by
  induction vs generalizing o eo fs with
  | nil => cases fs <;> rfl
  | cons v vs ih =>
    cases fs with
    | nil => rfl
    | cons f fs =>
      have h := ih (o + v.length) (eo + (edgesOf v.length f).length) fs
      unfold allEdges at h ⊢
      simp only [recs, List.flatMap_cons, joinE, List.map_append, List.map_map]
      rw [h]
      congr 1
      apply List.map_congr_left
      intro e _
      simp only [shiftE, Function.comp, Prod.mk.injEq]; push_cast; constructor <;> ring

/-- All faces refer to vertices of their mesh. -/
def FacesIn (vs : List (List (V3 ℝ))) (fs : List (List Face)) : Prop :=
  List.Forall₂ (fun v f => ∀ t ∈ f, Face.InRange v.length t) vs fs

theorem edges_inR {V : Nat} {f : List Face} (h : ∀ t ∈ f, Face.InRange V t) : InR V (edgesOf V f) := by
  intro e he
  obtain ⟨h1, t, ht, i, hs⟩ := ((edgesOf_isEdgeList h).2 e).mp he
  have := side_range (h t ht) i
  obtain ⟨⟨a1, a2⟩, a3, a4⟩ := this
  rcases hs with hs | hs <;> rw [hs]
  · exact ⟨a1, a2, a3, a4⟩
  · exact ⟨a3, a4, a1, a2⟩

theorem joinE_inR {vs : List (List (V3 ℝ))} {fs : List (List Face)} (h : FacesIn vs fs) :
    InR vs.flatten.length (joinE vs fs) := by
  induction h with
  | nil => intro e he; cases he
  | @cons v f vs fs h1 h2 ih =>
    intro e he
    rw [joinE] at he
    rw [List.flatten_cons, List.length_append]
    rcases List.mem_append.mp he with he | he
    · have := edges_inR h1 e he; push_cast; omega
    · obtain ⟨q, hq, rfl⟩ := List.mem_map.mp he
      have := ih q hq
      simp only [shiftE]; push_cast; omega

theorem iter_flatten (eps lam mu : ℝ) (n : Nat) {vs : List (List (V3 ℝ))} {fs : List (List Face)} (h : FacesIn vs fs) :
    iter eps lam mu (joinE vs fs) n (vs.flatten.map some) = (List.zipWith (one eps lam mu n) vs fs).flatten := by
  induction h with
  | nil =>
    have := length_iter eps lam mu (joinE [] []) n ([].flatten.map some)
    simp only [List.flatten_nil, List.map_nil, List.length_nil] at this
    simpa using this
  | @cons v f vs fs h1 h2 ih =>
    rw [joinE, List.flatten_cons, List.map_append]
    have hl : v.length = (v.map (some : V3 ℝ → Row)).length := (List.length_map _).symm
    rw [hl, iter_append _ _ _ _ _ _ _ _ (by rw [← hl]; exact edges_inR h1) (by rw [List.length_map]; exact joinE_inR h2), ih,
      ← hl]
    rfl

/-- **C76.** Smoothing a batch smooths every mesh on its own and keeps the faces. -/
theorem taubin_batch (eps lam mu : ℝ) (n : Nat) (vs : List (List (V3 ℝ))) (fs : List (List Face)) (h : FacesIn vs fs) :
    taubin eps lam mu n vs fs = some (List.zipWith (one eps lam mu n) vs fs, fs) := by
  have hlen : fs.length = vs.length := h.length_eq.symm
  have hok : (Abs.ofLists (0 : V3 ℝ) vs fs).FacesOK := by
    intro m h1 h2 t ht
    have := (List.forall₂_iff_get.mp h).2 m h1 h2 t ht
    exact this
  have he : edgesOf (Abs.ofLists (0 : V3 ℝ) vs fs).vertsPacked.length (Abs.ofLists (0 : V3 ℝ) vs fs).facesPacked = joinE vs fs := by
    rw [batch_edgesOf hlen hok]
    have := allEdges_joinE 0 0 vs fs
    unfold batch
    refine Eq.trans this ?_
    conv_rhs => rw [← List.map_id (joinE vs fs)]
    apply List.map_congr_left
    intro e _; simp [shiftE]
  unfold taubin
  dsimp only
  rw [he]
  have hp : (Abs.ofLists (0 : V3 ℝ) vs fs).vertsPacked = vs.flatten := rfl
  rw [hp, iter_flatten eps lam mu n h, splitRows_flatten _ _ (by
    apply List.ext_getElem
    · simp [hlen]
    · intro m h1 h2
      simp [one, length_iter])]
  rfl

/-! ## Which vertices are numbers -/

/-- Some edge ends at `i`. -/
def HasEdge (edges : List (Int × Int)) (i : Nat) : Prop := ∃ e ∈ edges, e.1 = (i : Int) ∨ e.2 = (i : Int)

/-- End points of edges are numbers. -/
def Fin' (edges : List (Int × Int)) (v : List Row) : Prop :=
  ∀ e ∈ edges, (∃ x, rowAt v e.1 = some x) ∧ ∃ x, rowAt v e.2 = some x

theorem norm_nonneg (a : V3 ℝ) : 0 ≤ Laplacian.norm a := Real.sqrt_nonneg _

theorem weight_pos {eps : ℝ} (h : 0 < eps) (a b : V3 ℝ) : 0 < weight eps a b := by
  have := norm_nonneg (a - b)
  unfold weight; positivity

theorem mapM_exists {X Y : Type} (l : List X) (f : X → Option Y) (h : ∀ x ∈ l, ∃ y, f x = some y) :
    ∃ ys, l.mapM f = some ys ∧ ys.length = l.length ∧ ∀ y ∈ ys, ∃ x ∈ l, f x = some y := by
  induction l with
  | nil => exact ⟨[], rfl, rfl, by simp⟩
  | cons a l ih =>
    obtain ⟨y, hy⟩ := h a (by simp)
    obtain ⟨ys, h1, h2, h3⟩ := ih (fun x hx => h x (by simp [hx]))
    refine ⟨y :: ys, by simp [List.mapM_cons, hy, h1], by simp [h2], ?_⟩
    intro z hz
    rcases List.mem_cons.mp hz with rfl | hz
    · exact ⟨a, by simp, hy⟩
    · obtain ⟨x, hx, e⟩ := h3 z hz
      exact ⟨x, by simp [hx], e⟩

theorem entries_exist {eps : ℝ} {edges : List (Int × Int)} {v : List Row} (hf : Fin' edges v) (i : Int) :
    ∃ ws, (rowEntries edges i).mapM (entry eps v) = some ws ∧ ws.length = (rowEntries edges i).length ∧
      ∀ w ∈ ws, ∃ q ∈ rowEntries edges i, entry eps v q = some w := by
  apply mapM_exists
  intro q hq
  obtain ⟨hm, hcase⟩ := mem_entries hq
  obtain ⟨⟨a, ha⟩, ⟨b, hb⟩⟩ := hf _ hm
  rcases hcase with h | h
  · exact ⟨(weight eps a b, b), by simp [entry, h.2, ha, hb]⟩
  · exact ⟨(weight eps a b, a), by simp [entry, h.2, ha, hb]⟩

theorem entry_pos {eps : ℝ} (h : 0 < eps) {v : List Row} {q : (Int × Int) × Int} {w : ℝ × V3 ℝ}
    (hq : entry eps v q = some w) : 0 < w.1 ∧ rowAt v q.2 = some w.2 := by
  unfold entry at hq
  cases h1 : rowAt v q.1.1 <;> cases h2 : rowAt v q.1.2 <;> cases h3 : rowAt v q.2 <;> simp [h1, h2, h3] at hq
  rw [← hq]
  exact ⟨weight_pos h _ _, rfl⟩

theorem sum_pos_of {l : List (ℝ × V3 ℝ)} (h : ∀ w ∈ l, 0 < w.1) (hne : l ≠ []) : 0 < (l.map Prod.fst).sum := by
  apply List.sum_pos
  · intro x hx
    obtain ⟨w, hw, rfl⟩ := List.mem_map.mp hx
    exact h w hw
  · simpa using hne

theorem entries_ne {edges : List (Int × Int)} {i : Nat} (h : HasEdge edges i) : rowEntries edges i ≠ [] := by
  obtain ⟨e, he, h | h⟩ := h
  · have : (e, e.2) ∈ rowEntries edges i := by
      unfold rowEntries
      simp only [List.mem_append, List.mem_map, List.mem_filter, beq_iff_eq]
      exact Or.inl ⟨e, ⟨he, h⟩, rfl⟩
    exact List.ne_nil_of_mem this
  · have : (e, e.1) ∈ rowEntries edges i := by
      unfold rowEntries
      simp only [List.mem_append, List.mem_map, List.mem_filter, beq_iff_eq]
      exact Or.inr ⟨e, ⟨he, h⟩, rfl⟩
    exact List.ne_nil_of_mem this

theorem entries_nil {edges : List (Int × Int)} {i : Nat} (h : ¬ HasEdge edges i) : rowEntries edges i = [] := by
  rw [List.eq_nil_iff_forall_not_mem]
  intro q hq
  obtain ⟨hm, hcase⟩ := mem_entries hq
  rcases hcase with h' | h'
  · exact h ⟨_, hm, Or.inl h'.1⟩
  · exact h ⟨_, hm, Or.inr h'.1⟩

/-- One step at a vertex with an edge: a mean with positive weights of the rows it is joined to. -/
theorem smoothRow_some {eps : ℝ} (heps : 0 < eps) (c : ℝ) {edges : List (Int × Int)} {v : List Row} (hf : Fin' edges v)
    {i : Nat} (hi : HasEdge edges i) : ∃ x ws, rowAt v i = some x ∧
      (rowEntries edges i).mapM (entry eps v) = some ws ∧ 0 < (ws.map Prod.fst).sum ∧
      (∀ w ∈ ws, 0 < w.1 ∧ ∃ j, HasEdge edges j ∧ rowAt v (j : Int) = some w.2) ∧
      smoothRow eps c edges v i
        = some ((1 - c) • x + ((ws.map Prod.fst).sum)⁻¹ • (c • (ws.map fun q => q.1 • q.2).sum)) := by
  obtain ⟨ws, h1, h2, h3⟩ := entries_exist (eps := eps) hf (i : Int)
  have hx : ∃ x, rowAt v i = some x := by
    obtain ⟨e, he, h | h⟩ := hi
    · rw [← h]; exact (hf e he).1
    · rw [← h]; exact (hf e he).2
  obtain ⟨x, hx⟩ := hx
  have hpos : ∀ w ∈ ws, 0 < w.1 ∧ ∃ j, HasEdge edges j ∧ rowAt v (j : Int) = some w.2 := by
    intro w hw
    obtain ⟨q, hq, e⟩ := h3 w hw
    obtain ⟨p1, p2⟩ := entry_pos heps e
    refine ⟨p1, q.2.toNat, ?_, ?_⟩
    all_goals
      have hn : 0 ≤ q.2 := by
        by_contra hneg
        unfold rowAt look at p2
        rw [if_neg hneg] at p2
        cases p2
    · obtain ⟨hm, hcase⟩ := mem_entries hq
      refine ⟨_, hm, ?_⟩
      rcases hcase with h | h
      · right; rw [Int.toNat_of_nonneg hn]; exact h.2.symm
      · left; rw [Int.toNat_of_nonneg hn]; exact h.2.symm
    · rw [Int.toNat_of_nonneg hn]; exact p2
  have hne : ws ≠ [] := by
    intro e; rw [e] at h2
    exact entries_ne hi (List.length_eq_zero_iff.mp h2.symm)
  have ht := sum_pos_of (fun w hw => (hpos w hw).1) hne
  refine ⟨x, ws, hx, h1, ht, hpos, ?_⟩
  unfold smoothRow
  rw [hx, h1]
  simp [blend, ht.ne']

theorem smoothRow_none (eps c : ℝ) {edges : List (Int × Int)} {v : List Row} {i : Nat} (hi : ¬ HasEdge edges i) :
    smoothRow eps c edges v i = none := by
  unfold smoothRow
  rw [entries_nil hi]
  cases rowAt v i <;> simp [blend]

theorem rowAt_smooth (eps c : ℝ) (edges : List (Int × Int)) (v : List Row) (i : Nat) (hi : i < v.length) :
    rowAt (smooth eps c edges v) i = smoothRow eps c edges v i := by
  unfold rowAt smooth
  rw [look_nat]
  simp [hi]

theorem fin_smooth {eps : ℝ} (heps : 0 < eps) (c : ℝ) {edges : List (Int × Int)} {v : List Row} (hf : Fin' edges v)
    (hr : InR v.length edges) : Fin' edges (smooth eps c edges v) := by
  intro e he
  have h := hr e he
  have key : ∀ k : Int, 0 ≤ k → k < v.length → (e.1 = k ∨ e.2 = k) → ∃ x, rowAt (smooth eps c edges v) k = some x := by
    intro k h0 h1 hk
    obtain ⟨m, rfl⟩ := Int.eq_ofNat_of_zero_le h0
    rw [rowAt_smooth _ _ _ _ _ (by omega)]
    obtain ⟨x, ws, -, -, -, -, hs⟩ := smoothRow_some heps c hf (i := m) ⟨e, he, hk⟩
    exact ⟨_, hs⟩
  exact ⟨key _ h.1 h.2.1 (Or.inl rfl), key _ h.2.2.1 h.2.2.2 (Or.inr rfl)⟩

theorem fin_start {edges : List (Int × Int)} {v : List (V3 ℝ)} (hr : InR v.length edges) : Fin' edges (v.map some) := by
  intro e he
  have h := hr e he
  have key : ∀ k : Int, 0 ≤ k → k < v.length → ∃ x, rowAt (v.map some) k = some x := by
    intro k h0 h1
    unfold rowAt
    rw [look_of_nonneg _ _ h0, List.getElem?_map, List.getElem?_eq_getElem (by omega)]
    exact ⟨_, rfl⟩
  exact ⟨key _ h.1 h.2.1, key _ h.2.2.1 h.2.2.2⟩

theorem iter_rows {eps : ℝ} (heps : 0 < eps) (lam mu : ℝ) {edges : List (Int × Int)} (n : Nat) {v : List Row}
    (hf : Fin' edges v) (hr : InR v.length edges) (i : Nat) (hi : i < v.length) :
    (∃ x, rowAt (iter eps lam mu edges (n + 1) v) i = some x) ↔ HasEdge edges i := by
  induction n generalizing v with
  | zero =>
    rw [iter, iter, rowAt_smooth _ _ _ _ _ (by rw [length_smooth]; exact hi)]
    have hf' := fin_smooth heps lam hf hr
    constructor
    · rintro ⟨x, hx⟩
      by_contra hn
      rw [smoothRow_none _ _ hn] at hx
      cases hx
    · intro hE
      obtain ⟨x, ws, -, -, -, -, hs⟩ := smoothRow_some heps mu hf' hE
      exact ⟨_, hs⟩
  | succ n ih =>
    rw [iter]
    apply ih
    · exact fin_smooth heps mu (fin_smooth heps lam hf hr) (by rw [length_smooth]; exact hr)
    · rw [length_smooth, length_smooth]; exact hr
    · rw [length_smooth, length_smooth]; exact hi

/-- An edge ends at `i` exactly if `i` is a corner of some face. -/
theorem hasEdge_iff {V : Nat} {f : List Face} (h : ∀ t ∈ f, Face.InRange V t) (i : Nat) :
    HasEdge (edgesOf V f) i ↔ ∃ t ∈ f, t.1 = (i : Int) ∨ t.2.1 = (i : Int) ∨ t.2.2 = (i : Int) := by
  constructor
  · rintro ⟨e, he, hi⟩
    obtain ⟨-, t, ht, k, hs⟩ := ((edgesOf_isEdgeList h).2 e).mp he
    refine ⟨t, ht, ?_⟩
    rcases hs with hs | hs <;> rw [hs] at hi <;> fin_cases k <;> simp only [Face.side] at hi <;> tauto
  · rintro ⟨t, ht, hi⟩
    have hm : ∀ k : Fin 3, sortPair (t.side k) ∈ edgesOf V f := fun k =>
      ((edgesOf_isEdgeList h).2 _).mpr ⟨sortPair_le _, t, ht, k, sortPair_same _⟩
    have hmem : ∀ k : Fin 3, ((t.side k).1 = (i : Int) ∨ (t.side k).2 = (i : Int)) → HasEdge (edgesOf V f) i := by
      intro k hk
      refine ⟨_, hm k, ?_⟩
      rcases sortPair_same (t.side k) with e | e <;> rw [e]
      · exact hk
      · exact hk.symm
    rcases hi with hi | hi | hi
    · exact hmem 2 (Or.inl hi)
    · exact hmem 2 (Or.inr hi)
    · exact hmem 0 (Or.inr hi)

/-- **C76.** After at least one iteration a vertex is a number exactly if it is a corner of some face; the vertices
without a face become NaN. -/
theorem one_number {eps : ℝ} (heps : 0 < eps) (lam mu : ℝ) (n : Nat) (v : List (V3 ℝ)) (f : List Face)
    (hf : ∀ t ∈ f, Face.InRange v.length t) (i : Nat) (hi : i < v.length) :
    (∃ x, (one eps lam mu (n + 1) v f)[i]? = some (some x)) ↔
      ∃ t ∈ f, t.1 = (i : Int) ∨ t.2.1 = (i : Int) ∨ t.2.2 = (i : Int) := by
  have hr := edges_inR hf
  rw [← hasEdge_iff hf i, ← iter_rows heps lam mu n (fin_start hr) (by rw [List.length_map]; exact hr) i (by simpa using hi)]
  unfold one rowAt
  rw [look_nat]
  constructor
  · rintro ⟨x, hx⟩
    exact ⟨x, by rw [hx]; rfl⟩
  · rintro ⟨x, hx⟩
    refine ⟨x, ?_⟩
    cases hh : (iter eps lam mu (edgesOf v.length f) (n + 1) (v.map some))[i]? with
    | none => rw [hh] at hx; cases hx
    | some r => rw [hh] at hx; simp only [Option.join_some] at hx; rw [hx]

theorem one_zero (eps lam mu : ℝ) (v : List (V3 ℝ)) (f : List Face) : one eps lam mu 0 v f = v.map some := rfl

/-! ## Rigid motions -/

/-- A rigid motion, possibly with a reflection. -/
def motion (A : V3 ℝ →ₗ[ℝ] V3 ℝ) (t : V3 ℝ) (x : V3 ℝ) : V3 ℝ := A x + t

theorem rowAt_map (g : V3 ℝ → V3 ℝ) (v : List Row) (i : Int) : rowAt (v.map (Option.map g)) i = (rowAt v i).map g := by
  unfold rowAt look
  split
  · rw [List.getElem?_map]; cases v[i.toNat]? <;> rfl
  · rfl

theorem weight_motion (eps : ℝ) (A : V3 ℝ →ₗ[ℝ] V3 ℝ) (t : V3 ℝ) (hA : ∀ x, V3.normSq (A x) = V3.normSq x) (a b : V3 ℝ) :
    weight eps (motion A t a) (motion A t b) = weight eps a b := by
  unfold weight motion Laplacian.norm
  rw [add_sub_add_right_eq_sub, ← map_sub, hA]

theorem entry_motion (eps : ℝ) (A : V3 ℝ →ₗ[ℝ] V3 ℝ) (t : V3 ℝ) (hA : ∀ x, V3.normSq (A x) = V3.normSq x) (v : List Row)
    (q : (Int × Int) × Int) : entry eps (v.map (Option.map (motion A t))) q
      = (entry eps v q).map fun w => (w.1, motion A t w.2) := by
  unfold entry
  simp only [rowAt_map]
  cases rowAt v q.1.1 <;> cases rowAt v q.1.2 <;> cases rowAt v q.2 <;>
    simp [weight_motion eps A t hA]

theorem mapM_map_option {X Y Z : Type} (l : List X) (f : X → Option Y) (g : Y → Z) :
    l.mapM (fun x => (f x).map g) = (l.mapM f).map (List.map g) := by
  induction l with
  | nil => rfl
  | cons a l ih =>
    rw [List.mapM_cons, List.mapM_cons, ih]
    cases f a <;> cases l.mapM f <;> rfl

theorem blend_motion (c : ℝ) (A : V3 ℝ →ₗ[ℝ] V3 ℝ) (t : V3 ℝ) (x : V3 ℝ) (ws : List (ℝ × V3 ℝ)) :
    blend c (motion A t x) (ws.map fun w => (w.1, motion A t w.2)) = (blend c x ws).map (motion A t) := by
  unfold blend
  have e1 : ((ws.map fun w => (w.1, motion A t w.2)).map Prod.fst).sum = (ws.map Prod.fst).sum := by
    rw [List.map_map]; rfl
  have e2 : ((ws.map fun w => (w.1, motion A t w.2)).map fun q => q.1 • q.2).sum
      = A ((ws.map fun q => q.1 • q.2).sum) + (ws.map Prod.fst).sum • t := by
    induction ws with
    | nil => simp
    | cons w ws ih =>
      simp only [List.map_cons, List.sum_cons]
      rw [ih (by rw [List.map_map]; rfl)]
      simp only [motion, map_add, map_smul, smul_add, add_smul]
      abel
  dsimp only
  rw [e1, e2]
  by_cases h : (ws.map Prod.fst).sum = 0
  · simp [h]
  · simp only [h, if_false, Option.map_some, Option.some.injEq]
    simp only [motion, map_add, map_smul, smul_add]
    have : ((ws.map Prod.fst).sum)⁻¹ • c • (ws.map Prod.fst).sum • t = c • t := by
      rw [smul_comm c, smul_smul, inv_mul_cancel₀ h, one_smul]
    rw [this]
    have : t = (1 - c) • t + c • t := by rw [← add_smul]; simp
    conv_rhs => rw [this]
    abel

theorem smooth_motion (eps c : ℝ) (A : V3 ℝ →ₗ[ℝ] V3 ℝ) (t : V3 ℝ) (hA : ∀ x, V3.normSq (A x) = V3.normSq x)
    (edges : List (Int × Int)) (v : List Row) :
    smooth eps c edges (v.map (Option.map (motion A t))) = (smooth eps c edges v).map (Option.map (motion A t)) := by
  unfold smooth
  rw [List.length_map, List.map_map]
  apply List.map_congr_left
  intro i _
  simp only [Function.comp, smoothRow]
  have : (rowEntries edges i).mapM (entry eps (v.map (Option.map (motion A t))))
      = ((rowEntries edges i).mapM (entry eps v)).map (List.map fun w => (w.1, motion A t w.2)) := by
    rw [← mapM_map_option]
    congr 1
    funext q
    exact entry_motion eps A t hA v q
  rw [this, rowAt_map]
  cases rowAt v i with
  | none => rfl
  | some x =>
    cases (rowEntries edges i).mapM (entry eps v) with
    | none => rfl
    | some ws => exact blend_motion c A t x ws

theorem iter_motion (eps lam mu : ℝ) (A : V3 ℝ →ₗ[ℝ] V3 ℝ) (t : V3 ℝ) (hA : ∀ x, V3.normSq (A x) = V3.normSq x)
    (edges : List (Int × Int)) (n : Nat) (v : List Row) :
    iter eps lam mu edges n (v.map (Option.map (motion A t))) = (iter eps lam mu edges n v).map (Option.map (motion A t)) := by
  induction n generalizing v with
  | zero => rfl
  | succ n ih => rw [iter, smooth_motion _ _ _ _ hA, smooth_motion _ _ _ _ hA, ih]; rfl

/-- **C76.** Smoothing commutes with rigid motions, reflections included. -/
theorem one_motion (eps lam mu : ℝ) (A : V3 ℝ →ₗ[ℝ] V3 ℝ) (t : V3 ℝ) (hA : ∀ x, V3.normSq (A x) = V3.normSq x)
    (n : Nat) (v : List (V3 ℝ)) (f : List Face) :
    one eps lam mu n (v.map (motion A t)) f = (one eps lam mu n v f).map (Option.map (motion A t)) := by
  unfold one
  rw [List.length_map, ← iter_motion _ _ _ _ _ hA, List.map_map, List.map_map]
  rfl

/-! ## Planes and half spaces -/

/-- Every row that is a number has `l x = k` (or `l x ≤ k`). -/
def All (p : V3 ℝ → Prop) (v : List Row) : Prop := ∀ x, some x ∈ v → p x

theorem all_rowAt {p : V3 ℝ → Prop} {v : List Row} (h : All p v) {i : Int} {x : V3 ℝ} (hx : rowAt v i = some x) : p x := by
  unfold rowAt look at hx
  split at hx
  · cases hh : v[i.toNat]? with
    | none => rw [hh] at hx; cases hx
    | some r =>
      rw [hh] at hx
      simp only [Option.join_some] at hx
      subst hx
      exact h x (List.mem_of_getElem? hh)
  · cases hx

theorem entries_spec {eps : ℝ} (heps : 0 < eps) {v : List Row} {l : List ((Int × Int) × Int)} {ws : List (ℝ × V3 ℝ)}
    (h : l.mapM (entry eps v) = some ws) : ∀ w ∈ ws, 0 < w.1 ∧ ∃ j, rowAt v j = some w.2 := by
  induction l generalizing ws with
  | nil => simp at h; subst h; simp
  | cons a l ih =>
    rw [List.mapM_cons] at h
    cases h1 : entry eps v a with
    | none => simp [h1] at h
    | some y =>
      cases h2 : l.mapM (entry eps v) with
      | none => simp [h1, h2] at h
      | some ys =>
        simp [h1, h2] at h
        subst h
        intro w hw
        rcases List.mem_cons.mp hw with rfl | hw
        · exact ⟨(entry_pos heps h1).1, _, (entry_pos heps h1).2⟩
        · exact ih h2 w hw

/-- One step keeps a property of rows that is kept by `blend`. -/
theorem all_smooth {eps : ℝ} (heps : 0 < eps) (c : ℝ) (edges : List (Int × Int)) {p : V3 ℝ → Prop}
    (hp : ∀ x ws y, p x → (∀ w ∈ ws, 0 < w.1 ∧ p w.2) → blend c x ws = some y → p y) {v : List Row} (h : All p v) :
    All p (smooth eps c edges v) := by
  intro y hy
  unfold smooth at hy
  obtain ⟨i, -, hy⟩ := List.mem_map.mp hy
  unfold smoothRow at hy
  cases h1 : rowAt v i with
  | none => simp [h1] at hy
  | some x =>
    cases h2 : (rowEntries edges i).mapM (entry eps v) with
    | none => simp [h1, h2] at hy
    | some ws =>
      simp [h1, h2] at hy
      refine hp x ws y (all_rowAt h h1) ?_ hy
      intro w hw
      obtain ⟨h3, j, h4⟩ := entries_spec heps h2 w hw
      exact ⟨h3, all_rowAt h h4⟩

theorem all_iter {eps : ℝ} (heps : 0 < eps) (lam mu : ℝ) (edges : List (Int × Int)) {p : V3 ℝ → Prop}
    (h1 : ∀ x ws y, p x → (∀ w ∈ ws, 0 < w.1 ∧ p w.2) → blend lam x ws = some y → p y)
    (h2 : ∀ x ws y, p x → (∀ w ∈ ws, 0 < w.1 ∧ p w.2) → blend mu x ws = some y → p y) (n : Nat) {v : List Row}
    (h : All p v) : All p (iter eps lam mu edges n v) := by
  induction n generalizing v with
  | zero => exact h
  | succ n ih => exact ih (all_smooth heps mu edges h2 (all_smooth heps lam edges h1 h))

theorem blend_linear (l : V3 ℝ →ₗ[ℝ] ℝ) (c : ℝ) (x : V3 ℝ) (ws : List (ℝ × V3 ℝ)) (y : V3 ℝ)
    (h : blend c x ws = some y) : (ws.map Prod.fst).sum ≠ 0 ∧
      l y = (1 - c) * l x + c * (((ws.map Prod.fst).sum)⁻¹ * (ws.map fun w => w.1 * l w.2).sum) := by
  unfold blend at h
  dsimp only at h
  split at h
  · cases h
  · rename_i hne
    refine ⟨hne, ?_⟩
    cases h
    have e : l ((ws.map fun q => q.1 • q.2).sum) = (ws.map fun w => w.1 * l w.2).sum := by
      rw [map_list_sum, List.map_map]
      congr 1
      apply List.map_congr_left
      intro w _
      simp
    simp only [map_add, map_smul, smul_eq_mul, e]
    ring

/-- **C76.** A plane (or line) containing all vertices contains the smoothed ones. -/
theorem one_plane {eps : ℝ} (heps : 0 < eps) (lam mu : ℝ) (n : Nat) (v : List (V3 ℝ)) (f : List Face)
    (l : V3 ℝ →ₗ[ℝ] ℝ) (k : ℝ) (h : ∀ x ∈ v, l x = k) : ∀ y, some y ∈ one eps lam mu n v f → l y = k := by
  have hb : ∀ c : ℝ, ∀ x ws y, l x = k → (∀ w ∈ ws, (0 : ℝ) < w.1 ∧ l w.2 = k) → blend c x ws = some y → l y = k := by
    intro c x ws y hx hw hy
    obtain ⟨hne, e⟩ := blend_linear l c x ws y hy
    have e2 : (ws.map fun w => w.1 * l w.2).sum = (ws.map Prod.fst).sum * k := by
      rw [← List.sum_map_mul_right]
      congr 1
      apply List.map_congr_left
      intro w hm
      rw [(hw w hm).2]
    rw [e, e2, hx, inv_mul_cancel_left₀ hne]; ring
  refine all_iter heps lam mu _ (hb lam) (hb mu) n ?_
  intro x hx
  obtain ⟨z, hz, e⟩ := List.mem_map.mp hx
  cases e
  exact h x hz

/-- **C76.** With both factors in `[0, 1]` every half space containing all vertices contains the smoothed ones: the result
lies in the convex hull. -/
theorem one_halfspace {eps : ℝ} (heps : 0 < eps) {lam mu : ℝ} (h1 : 0 ≤ lam ∧ lam ≤ 1) (h2 : 0 ≤ mu ∧ mu ≤ 1) (n : Nat)
    (v : List (V3 ℝ)) (f : List Face) (l : V3 ℝ →ₗ[ℝ] ℝ) (k : ℝ) (h : ∀ x ∈ v, l x ≤ k) :
    ∀ y, some y ∈ one eps lam mu n v f → l y ≤ k := by
  have hb : ∀ c : ℝ, 0 ≤ c ∧ c ≤ 1 → ∀ x ws y, l x ≤ k → (∀ w ∈ ws, (0 : ℝ) < w.1 ∧ l w.2 ≤ k) → blend c x ws = some y →
      l y ≤ k := by
    intro c hc x ws y hx hw hy
    obtain ⟨hne, e⟩ := blend_linear l c x ws y hy
    have e2 : (ws.map fun w => w.1 * l w.2).sum ≤ (ws.map Prod.fst).sum * k := by
      rw [← List.sum_map_mul_right]
      apply List.sum_le_sum
      intro w hm
      exact mul_le_mul_of_nonneg_left (hw w hm).2 (hw w hm).1.le
    have hpos : 0 < (ws.map Prod.fst).sum := by
      apply sum_pos_of (fun w hm => (hw w hm).1)
      rintro rfl; simp at hne
    have e3 : ((ws.map Prod.fst).sum)⁻¹ * (ws.map fun w => w.1 * l w.2).sum ≤ k := by
      rw [inv_mul_le_iff₀ hpos]; exact e2
    rw [e]
    have : (1 - c) * l x ≤ (1 - c) * k := mul_le_mul_of_nonneg_left hx (by linarith [hc.2])
    have : c * (((ws.map Prod.fst).sum)⁻¹ * (ws.map fun w => w.1 * l w.2).sum) ≤ c * k :=
      mul_le_mul_of_nonneg_left e3 hc.1
    linarith
  refine all_iter heps lam mu _ (hb lam h1) (hb mu h2) n ?_
  intro x hx
  obtain ⟨z, hz, e⟩ := List.mem_map.mp hx
  cases e
  exact h x hz

/-! ## The Laplacian -/

theorem sum_single {M : Type} [AddCommGroup M] (V : Nat) (k : Nat) (hk : k < V) (x : Nat → M) :
    ((List.range V).map fun j => if k = j then x j else 0).sum = x k := by
  induction V with
  | zero => omega
  | succ V ih =>
    rw [List.range_succ, List.map_append, List.sum_append]
    by_cases h : k = V
    · subst h
      have : ((List.range k).map fun j => if k = j then x j else 0).sum = 0 := by
        apply List.sum_eq_zero
        intro y hy
        obtain ⟨j, hj, rfl⟩ := List.mem_map.mp hy
        rw [if_neg]; have := List.mem_range.mp hj; omega
      rw [this]; simp
    · rw [ih (by omega)]; simp [h]

theorem sum_zero_fun {M : Type} [AddCommGroup M] (V : Nat) : ((List.range V).map fun _ => (0 : M)).sum = 0 := by
  apply List.sum_eq_zero
  intro y hy
  obtain ⟨j, -, rfl⟩ := List.mem_map.mp hy
  rfl

theorem norm_cons (eps : ℝ) (verts : Nat → V3 ℝ) (e : Nat × Nat) (edges : List (Nat × Nat)) (i j : Nat) :
    Laplacian.normLaplacian eps verts (e :: edges) (i, j)
      = (if e.1 = i ∧ e.2 = j then weight eps (verts e.1) (verts e.2) else 0)
        + (if e.2 = i ∧ e.1 = j then weight eps (verts e.1) (verts e.2) else 0)
        + Laplacian.normLaplacian eps verts edges (i, j) := by
  unfold Laplacian.normLaplacian Laplacian.addT weight
  obtain ⟨a, b⟩ := e
  simp only [List.map_cons, Scatter.scatterAdd_cons, Prod.swap, Prod.mk.injEq]
  have : (a = j ∧ b = i) ↔ (b = i ∧ a = j) := and_comm
  simp only [this]
  ring

/-- Row `i` of `L` applied to a function of the vertices is the sum over the stored entries. -/
theorem row_eq {M : Type} [AddCommGroup M] [Module ℝ M] (eps : ℝ) (verts : Nat → V3 ℝ) (V : Nat) (edges : List (Nat × Nat))
    (hE : ∀ e ∈ edges, e.1 < V ∧ e.2 < V) (i : Nat) (g : Nat → M) :
    ((List.range V).map fun j => Laplacian.normLaplacian eps verts edges (i, j) • g j).sum
      = ((edges.filter fun e => e.1 == i).map fun e => weight eps (verts e.1) (verts e.2) • g e.2).sum
        + ((edges.filter fun e => e.2 == i).map fun e => weight eps (verts e.1) (verts e.2) • g e.1).sum := by
  induction edges with
  | nil =>
    have : ∀ j, Laplacian.normLaplacian eps verts [] (i, j) = 0 := by
      intro j; simp [Laplacian.normLaplacian, Laplacian.addT, Scatter.scatterAdd]
    simp only [this, zero_smul, sum_zero_fun]
    simp
  | cons e edges ih =>
    have he := hE e (by simp)
    have hsplit : ∀ j, Laplacian.normLaplacian eps verts (e :: edges) (i, j) • g j
        = ((if e.1 = i then (if e.2 = j then weight eps (verts e.1) (verts e.2) • g j else 0) else 0)
          + (if e.2 = i then (if e.1 = j then weight eps (verts e.1) (verts e.2) • g j else 0) else 0))
          + Laplacian.normLaplacian eps verts edges (i, j) • g j := by
      intro j
      rw [norm_cons, add_smul, add_smul]
      congr 2
      · by_cases h1 : e.1 = i <;> by_cases h2 : e.2 = j <;> simp [h1, h2]
      · by_cases h1 : e.2 = i <;> by_cases h2 : e.1 = j <;> simp [h1, h2]
    simp only [hsplit]
    rw [List.sum_map_add, List.sum_map_add, ih (fun q hq => hE q (by simp [hq]))]
    have a1 : ((List.range V).map fun j => if e.1 = i then (if e.2 = j then weight eps (verts e.1) (verts e.2) • g j else 0) else 0).sum
        = if e.1 = i then weight eps (verts e.1) (verts e.2) • g e.2 else 0 := by
      by_cases h : e.1 = i
      · simp only [h, if_true]
        exact sum_single V e.2 he.2 fun j => weight eps (verts i) (verts e.2) • g j
      · simp only [h, if_false]; exact sum_zero_fun V
    have a2 : ((List.range V).map fun j => if e.2 = i then (if e.1 = j then weight eps (verts e.1) (verts e.2) • g j else 0) else 0).sum
        = if e.2 = i then weight eps (verts e.1) (verts e.2) • g e.1 else 0 := by
      by_cases h : e.2 = i
      · simp only [h, if_true]
        exact sum_single V e.1 he.1 fun j => weight eps (verts e.1) (verts i) • g j
      · simp only [h, if_false]; exact sum_zero_fun V
    rw [a1, a2]
    by_cases h1 : e.1 = i <;> by_cases h2 : e.2 = i <;> simp [h1, h2] <;> abel

/-- An edge with indices of natural numbers, as a row of the tensor. -/
def castE (e : Nat × Nat) : Int × Int := ((e.1 : Int), (e.2 : Int))

theorem mapM_some {X Y : Type} (l : List X) (f : X → Option Y) (g : X → Y) (h : ∀ x ∈ l, f x = some (g x)) :
    l.mapM f = some (l.map g) := by
  induction l with
  | nil => rfl
  | cons a l ih =>
    rw [List.mapM_cons, h a (by simp), ih (fun x hx => h x (by simp [hx]))]; rfl

/-- **C76.** One step is `(1 - c) v + c L v / (row sums of L)` with `L` the matrix of `norm_laplacian` (C44). -/
theorem smooth_formula {eps : ℝ} (heps : 0 < eps) (c : ℝ) (verts : Nat → V3 ℝ) (V : Nat) (edges : List (Nat × Nat))
    (hE : ∀ e ∈ edges, e.1 < V ∧ e.2 < V) (i : Nat) (hi : i < V) (hd : ∃ e ∈ edges, e.1 = i ∨ e.2 = i) :
    let L := Laplacian.normLaplacian eps verts edges
    let tot := ((List.range V).map fun j => L (i, j)).sum
    0 < tot ∧ (smooth eps c (edges.map castE) ((List.range V).map fun j => some (verts j)))[i]?
      = some (some ((1 - c) • verts i + (c / tot) • ((List.range V).map fun j => L (i, j) • verts j).sum)) := by
  intro L tot
  have hat : ∀ k : Nat, k < V → rowAt ((List.range V).map fun j => some (verts j)) k = some (verts k) := by
    intro k hk
    unfold rowAt
    rw [look_nat]
    simp [hk]
  let ent : List ((Int × Int) × Int) := rowEntries (edges.map castE) i
  have hf1 : ((edges.map castE).filter fun e => e.1 == (i : Int)) = (edges.filter fun e => e.1 == i).map castE := by
    rw [List.filter_map]
    congr 2
    funext e
    rw [Bool.eq_iff_iff]
    simp only [Function.comp, castE, beq_iff_eq, Nat.cast_inj]
  have hf2 : ((edges.map castE).filter fun e => e.2 == (i : Int)) = (edges.filter fun e => e.2 == i).map castE := by
    rw [List.filter_map]
    congr 2
    funext e
    rw [Bool.eq_iff_iff]
    simp only [Function.comp, castE, beq_iff_eq, Nat.cast_inj]
  have hent : (rowEntries (edges.map castE) i).mapM (entry eps ((List.range V).map fun j => some (verts j)))
      = some (((edges.filter fun e => e.1 == i).map fun e => (weight eps (verts e.1) (verts e.2), verts e.2))
        ++ ((edges.filter fun e => e.2 == i).map fun e => (weight eps (verts e.1) (verts e.2), verts e.1))) := by
    unfold rowEntries
    rw [hf1, hf2, List.map_map, List.map_map]
    let q1 : Nat × Nat → (ℝ × V3 ℝ) := fun e => (weight eps (verts e.1) (verts e.2), verts e.2)
    let q2 : Nat × Nat → (ℝ × V3 ℝ) := fun e => (weight eps (verts e.1) (verts e.2), verts e.1)
    rw [List.mapM_append, List.mapM_map, List.mapM_map, mapM_some _ _ q1, mapM_some _ _ q2]
    · rfl
    · intro e he
      have := hE e (List.mem_of_mem_filter he)
      simp [entry, castE, Function.comp, hat _ this.1, hat _ this.2, q2]
    · intro e he
      have := hE e (List.mem_of_mem_filter he)
      simp [entry, castE, Function.comp, hat _ this.1, hat _ this.2, q1]
  have hrt : tot = ((edges.filter fun e => e.1 == i).map fun e => weight eps (verts e.1) (verts e.2)).sum
        + ((edges.filter fun e => e.2 == i).map fun e => weight eps (verts e.1) (verts e.2)).sum := by
    have := row_eq eps verts V edges hE i (fun _ => (1 : ℝ))
    simpa only [smul_eq_mul, mul_one] using this
  have hrv := row_eq eps verts V edges hE i verts
  have hin : InR ((List.range V).map fun j => some (verts j)).length (edges.map castE) := by
    intro e he
    obtain ⟨q, hq, rfl⟩ := List.mem_map.mp he
    have := hE q hq
    simp only [castE, List.length_map, List.length_range]; omega
  have hfin : Fin' (edges.map castE) ((List.range V).map fun j => some (verts j)) := by
    intro e he
    obtain ⟨q, hq, rfl⟩ := List.mem_map.mp he
    have := hE q hq
    exact ⟨⟨_, hat _ this.1⟩, ⟨_, hat _ this.2⟩⟩
  have hdeg : HasEdge (edges.map castE) i := by
    obtain ⟨e, he, h⟩ := hd
    refine ⟨castE e, List.mem_map_of_mem he, ?_⟩
    simp only [castE, Nat.cast_inj]; exact h
  obtain ⟨x, ws, hx, hws, hpos, -, hs⟩ := smoothRow_some heps c hfin hdeg
  rw [hent, Option.some.injEq] at hws
  rw [hat i hi, Option.some.injEq] at hx
  subst hx hws
  have htot : ((((edges.filter fun e => e.1 == i).map fun e => (weight eps (verts e.1) (verts e.2), verts e.2))
        ++ ((edges.filter fun e => e.2 == i).map fun e => (weight eps (verts e.1) (verts e.2), verts e.1))).map Prod.fst).sum = tot := by
    rw [hrt, List.map_append, List.sum_append, List.map_map, List.map_map]; rfl
  have hvec : ((((edges.filter fun e => e.1 == i).map fun e => (weight eps (verts e.1) (verts e.2), verts e.2))
        ++ ((edges.filter fun e => e.2 == i).map fun e => (weight eps (verts e.1) (verts e.2), verts e.1))).map
          fun q => q.1 • q.2).sum = ((List.range V).map fun j => L (i, j) • verts j).sum := by
    rw [hrv, List.map_append, List.sum_append, List.map_map, List.map_map]; rfl
  rw [htot, hvec] at hs
  rw [htot] at hpos
  refine ⟨hpos, ?_⟩
  unfold smooth
  rw [List.getElem?_map, List.getElem?_range (by simpa using hi), Option.map_some, hs, smul_smul,
    show tot⁻¹ * c = c / tot by rw [div_eq_mul_inv, mul_comm]]

end

/-! ## Examples -/

/-- A triangle with a fourth vertex that belongs to no face: the fourth vertex becomes NaN, the others do not. -/
example (a b c d : V3 ℝ) : ∃ x y z, one 1 0.53 (-0.53) 10 [a, b, c, d] [(0, 1, 2)] = [some x, some y, some z, none] := by
  have hf : ∀ t ∈ [((0, 1, 2) : Face)], Face.InRange [a, b, c, d].length t := by
    intro t ht
    rw [List.mem_singleton] at ht
    subst ht
    simp [Face.InRange]
  have hlen : (one 1 0.53 (-0.53) 10 [a, b, c, d] [(0, 1, 2)]).length = 4 := by
    unfold one; rw [length_iter]; rfl
  have h := fun i hi => one_number (eps := 1) one_pos 0.53 (-0.53) 9 [a, b, c, d] [(0, 1, 2)] hf i hi
  obtain ⟨x, hx⟩ := (h 0 (by simp)).mpr ⟨(0, 1, 2), by simp, by simp⟩
  obtain ⟨y, hy⟩ := (h 1 (by simp)).mpr ⟨(0, 1, 2), by simp, by simp⟩
  obtain ⟨z, hz⟩ := (h 2 (by simp)).mpr ⟨(0, 1, 2), by simp, by simp⟩
  have h3 := (h 3 (by simp)).not
  generalize hr : one 1 0.53 (-0.53) (9 + 1) [a, b, c, d] [(0, 1, 2)] = r at *
  change r.length = 4 at hlen
  match r, hlen with
  | [r0, r1, r2, r3], _ =>
    simp at hx hy hz h3
    refine ⟨x, y, z, ?_⟩
    rw [hx, hy, hz]
    cases r3 with
    | none => rfl
    | some w => exact absurd rfl (h3 w)

end P3D.Taubin
