/-
C45: gather_scatter sums neighbour features, for every order of the atomic additions; its backward
pass is the adjoint; relabelling vertices commutes with it.
-/
import Verif.GatherScatter
import Mathlib.Algebra.BigOperators.Ring.List
import Mathlib.Tactic.Ring
import Mathlib.Data.Multiset.Bind
import Mathlib.Algebra.Ring.Int.Defs

set_option linter.unusedSectionVars false

namespace P3D.GatherScatter
open P3D.Scatter P3D.Chunks

variable {R : Type*} [CommRing R]

/-! ### Specification -/

/-- The neighbours whose features vertex `v` receives: heads of the edges leaving `v`, and for an
undirected graph also tails of the edges entering `v` (with multiplicity). -/
def neighbours (edges : List (Nat × Nat)) (directed : Bool) (v : Nat) : List Nat :=
  (edges.filter fun e => decide (e.1 = v)).map Prod.snd ++
    if directed then [] else (edges.filter fun e => decide (e.2 = v)).map Prod.fst

/-- Sum of the neighbours' features. -/
def aggregate (input : Nat × Nat → R) (edges : List (Nat × Nat)) (directed : Bool) (v d : Nat) : R :=
  ((neighbours edges directed v).map fun u => input (u, d)).sum

def Valid (V : Nat) (edges : List (Nat × Nat)) : Prop := ∀ e ∈ edges, e.1 < V ∧ e.2 < V

/-! ### Python implementation -/

theorem sum_single (D d : Nat) (hd : d < D) (f : Nat → R) :
    ((List.range D).map fun i => if i = d then f i else 0).sum = f d := by
  induction D with
  | zero => omega
  | succ D ih =>
    rw [List.range_succ, List.map_append, List.sum_append]
    by_cases h : d = D
    · subst h
      have : ((List.range d).map fun i => if i = d then f i else 0) = (List.range d).map fun _ => (0:R) := by
        apply List.map_congr_left
        intro i hi
        rw [if_neg (by rw [List.mem_range] at hi; omega)]
      rw [this]; simp
    · rw [ih (by omega)]
      have : ¬ D = d := fun e => h e.symm
      simp [this]

theorem scatter_row (D : Nat) (f : Nat → R) (a v d : Nat) (hd : d < D) :
    scatterAdd ((List.range D).map fun i => ((a, i), f i)) (v, d) = if a = v then f d else 0 := by
  rw [scatterAdd_apply]
  have : ∀ l : List Nat, (((l.map fun i => ((a, i), f i)).filter fun c => decide (c.1 = (v, d))).map
      Prod.snd).sum = (l.map fun i => if i = d then (if a = v then f i else 0) else 0).sum := by
    intro l
    induction l with
    | nil => rfl
    | cons x l ih =>
      rw [List.map_cons, List.filter_cons, List.map_cons, List.sum_cons, ← ih]
      by_cases h1 : a = v <;> by_cases h2 : x = d <;> simp [h1, h2]
  rw [this, sum_single D d hd]

theorem scatterRows_apply (D : Nat) (input : Nat × Nat → R) (pairs : List (Nat × Nat)) (v d : Nat)
    (hd : d < D) : scatterAdd (scatterRows D input pairs) (v, d)
      = (((pairs.filter fun e => decide (e.1 = v)).map Prod.snd).map fun u => input (u, d)).sum := by
  unfold scatterRows
  induction pairs with
  | nil => simp [scatterAdd]
  | cons p pairs ih =>
    rw [List.flatMap_cons, scatterAdd_append, ih, scatter_row D (fun i => input (p.2, i)) p.1 v d hd,
      List.filter_cons]
    by_cases h : p.1 = v <;> simp [h]

theorem filter_swap (edges : List (Nat × Nat)) (v : Nat) :
    ((edges.map Prod.swap).filter fun e => decide (e.1 = v)).map Prod.snd
      = (edges.filter fun e => decide (e.2 = v)).map Prod.fst := by
  induction edges with
  | nil => rfl
  | cons e l ih =>
    simp only [List.map_cons, List.filter_cons, Prod.fst_swap]
    by_cases h : e.2 = v <;> simp [h, ih]

/-- **C45 (value).** On the CPU every vertex receives the sum of its neighbours' features. -/
theorem gsPython_value {V D : Nat} (input : Nat × Nat → R) {edges : List (Nat × Nat)}
    (directed : Bool) (hv : Valid V edges) :
    ∃ out, gsPython V D input edges directed = .ok out ∧
      ∀ v d, d < D → out (v, d) = aggregate input edges directed v d := by
  unfold gsPython
  rw [if_pos (by
    rw [List.all_eq_true]
    intro e he
    have := hv e he
    simp [this.1, this.2])]
  refine ⟨_, rfl, ?_⟩
  intro v d hd
  rw [scatterAdd_append, scatterRows_apply D input edges v d hd, aggregate, neighbours,
    List.map_append, List.sum_append]
  congr 1
  cases directed
  · simp only [Bool.false_eq_true, if_false]
    rw [scatterRows_apply D input _ v d hd, filter_swap]
  · simp [scatterAdd]

/-- Out-of-range indices raise. -/
theorem gsPython_error {V D : Nat} (input : Nat × Nat → R) {edges : List (Nat × Nat)}
    (directed : Bool) (hv : ¬ Valid V edges) :
    gsPython V D input edges directed = .error .indexOutOfBounds := by
  unfold gsPython
  rw [if_neg]
  intro h
  apply hv
  intro e he
  rw [List.all_eq_true] at h
  simpa using h e he

/-! ### CUDA kernel -/

/-- Edges as seen by the kernel: reversed in the backward pass. -/
def orient (backward : Bool) (edges : List (Nat × Nat)) : List (Nat × Nat) :=
  if backward then edges.map Prod.swap else edges

theorem strides_perm {grid : Nat} (hg : 0 < grid) (n : Nat) :
    ((List.range grid).flatMap fun b => strideLoop b grid n).Perm (List.range n) := by
  have := gridStride_perm hg (Nat.one_pos) n
  have e : gridStride grid 1 n = (List.range grid).flatMap fun b => strideLoop b grid n := by
    unfold gridStride
    simp
  rwa [e] at this

theorem kernelAdds_perm {grid block : Nat} (hg : 0 < grid) (hb : 0 < block) (D : Nat)
    (input : Nat × Nat → R) (edges : List (Nat × Nat)) (directed backward : Bool) :
    (kernelAdds grid block D input edges directed backward).Perm
      ((List.range edges.length).flatMap fun e => (List.range D).flatMap fun d =>
        edgeAdds input directed backward (edges.getD e (0, 0)) d) := by
  set F := fun e d => edgeAdds input directed backward (edges.getD e (0, 0)) d with hF
  have h1 : (kernelAdds grid block D input edges directed backward).Perm
      ((List.range grid).flatMap fun b => (strideLoop b grid edges.length).flatMap fun e =>
        (List.range block).flatMap fun t => (strideLoop t block D).flatMap fun d => F e d) := by
    apply List.Perm.flatMap_left
    intro b _
    apply Multiset.coe_eq_coe.mp
    simp only [← Multiset.coe_bind]
    rw [Multiset.bind_bind]
  refine h1.trans ?_
  have h2 : ∀ e, ((List.range block).flatMap fun t => (strideLoop t block D).flatMap fun d => F e d).Perm
      ((List.range D).flatMap fun d => F e d) := by
    intro e
    rw [← List.flatMap_assoc]
    exact (strides_perm hb D).flatMap_right _
  have h3 : ((List.range grid).flatMap fun b => (strideLoop b grid edges.length).flatMap fun e =>
        (List.range block).flatMap fun t => (strideLoop t block D).flatMap fun d => F e d).Perm
      ((List.range grid).flatMap fun b => (strideLoop b grid edges.length).flatMap fun e =>
        (List.range D).flatMap fun d => F e d) :=
    List.Perm.flatMap_left _ fun b _ => List.Perm.flatMap_left _ fun e _ => h2 e
  refine h3.trans ?_
  rw [← List.flatMap_assoc]
  exact (strides_perm hg edges.length).flatMap_right _

theorem map_getD_range {α : Type*} (l : List α) (a : α) :
    (List.range l.length).map (fun i => l.getD i a) = l := by
  apply List.ext_getElem?
  intro k
  by_cases hk : k < l.length
  · simp [hk]
  · rw [List.getElem?_eq_none (by simp; omega), List.getElem?_eq_none (by omega)]

theorem scatter_pair (D : Nat) (f g : Nat → R) (a b v d : Nat) (directed : Bool) (hd : d < D) :
    scatterAdd ((List.range D).flatMap fun i => ((a, i), f i) ::
      if directed then [] else [((b, i), g i)]) (v, d)
      = (if a = v then f d else 0) + if directed then 0 else if b = v then g d else 0 := by
  cases directed
  · simp only [Bool.false_eq_true, if_false]
    have : ∀ l : List Nat, (l.flatMap fun i => [((a, i), f i), ((b, i), g i)]).Perm
        ((l.map fun i => ((a, i), f i)) ++ l.map fun i => ((b, i), g i)) := by
      intro l
      induction l with
      | nil => exact List.Perm.refl _
      | cons x l ih =>
        simp only [List.flatMap_cons, List.map_cons, List.cons_append, List.nil_append]
        exact List.Perm.cons _ ((List.Perm.cons _ ih).trans List.perm_middle.symm)
    rw [scatterAdd_perm (this _), scatterAdd_append, scatter_row D f a v d hd,
      scatter_row D g b v d hd]
  · simp only [if_true, add_zero]
    rw [← scatter_row D f a v d hd]
    congr 1
    induction List.range D with
    | nil => rfl
    | cons x l ih => simp [List.flatMap_cons, ih]

theorem neighbours_cons (e : Nat × Nat) (edges : List (Nat × Nat)) (directed : Bool) (v d : Nat)
    (input : Nat × Nat → R) :
    aggregate input (e :: edges) directed v d = ((if e.1 = v then input (e.2, d) else 0) +
      if directed then 0 else if e.2 = v then input (e.1, d) else 0)
        + aggregate input edges directed v d := by
  unfold aggregate neighbours
  cases directed <;> by_cases h1 : e.1 = v <;> by_cases h2 : e.2 = v <;>
    simp [h1, h2] <;> ring

/-- **C45 (CUDA).** Whatever the launch configuration and the order in which the atomic additions
take effect, the kernel computes the neighbour sums of the graph, with all edges reversed in the
backward pass. -/
theorem kernel_value {grid block D : Nat} (hg : 0 < grid) (hb : 0 < block) (input : Nat × Nat → R)
    (edges : List (Nat × Nat)) (directed backward : Bool) (adds : List ((Nat × Nat) × R))
    (h : adds.Perm (kernelAdds grid block D input edges directed backward)) (v d : Nat) (hd : d < D) :
    scatterAdd adds (v, d) = aggregate input (orient backward edges) directed v d := by
  rw [scatterAdd_perm (h.trans (kernelAdds_perm hg hb D input edges directed backward))]
  have e1 : ((List.range edges.length).flatMap fun e => (List.range D).flatMap fun d =>
        edgeAdds input directed backward (edges.getD e (0, 0)) d)
      = (orient backward edges).flatMap fun e => (List.range D).flatMap fun d =>
        edgeAdds input directed false e d := by
    have : ((List.range edges.length).flatMap fun e => (List.range D).flatMap fun d =>
        edgeAdds input directed backward (edges.getD e (0, 0)) d)
        = edges.flatMap fun e => (List.range D).flatMap fun d => edgeAdds input directed backward e d := by
      conv_rhs => rw [← map_getD_range edges (0, 0)]
      rw [List.flatMap_map]
    rw [this]
    cases backward
    · rfl
    · simp only [orient, if_true, List.flatMap_map]
      apply flatMap_congr'
      intro e _
      apply flatMap_congr'
      intro d _
      simp [edgeAdds]
  rw [e1]
  induction orient backward edges with
  | nil => simp [scatterAdd, aggregate, neighbours]
  | cons e l ih =>
    rw [List.flatMap_cons, scatterAdd_append, ih, neighbours_cons]
    congr 1
    exact scatter_pair D (fun i => input (e.2, i)) (fun i => input (e.1, i)) e.1 e.2 v d directed hd

/-- The call on the GPU agrees with the CPU, except for a graph without edges, where the launch
fails. -/
theorem gsCuda_value {V D : Nat} (input : Nat × Nat → R) {edges : List (Nat × Nat)}
    (directed backward : Bool) :
    (0 < V → 0 < D → edges ≠ [] → ∃ adds, gsCudaAdds V D input edges directed backward = .ok adds ∧
      ∀ adds', adds'.Perm adds → ∀ v d, d < D →
        scatterAdd adds' (v, d) = aggregate input (orient backward edges) directed v d) ∧
    (0 < V → 0 < D → edges = [] →
      gsCudaAdds V D input edges directed backward = .error .invalidConfiguration) := by
  constructor
  · intro hV hD he
    have hlen : 0 < edges.length := List.length_pos_iff.mpr he
    unfold gsCudaAdds
    rw [if_neg (Nat.mul_pos hV hD).ne', if_neg hlen.ne']
    refine ⟨_, rfl, fun adds' h v d hd => ?_⟩
    apply kernel_value _ (by omega) input edges directed backward adds' h v d hd
    split <;> omega
  · intro hV hD he
    unfold gsCudaAdds
    rw [if_neg (Nat.mul_pos hV hD).ne', he]
    rfl

/-! ### Laws of the aggregation -/

/-- **C45 (adjoint).** The backward pass is the transpose of the forward pass:
`Σ out(x) * g = Σ x * back(g)`, for directed and undirected graphs. -/
theorem aggregate_adjoint {V : Nat} (x g : Nat × Nat → R) {edges : List (Nat × Nat)}
    (directed : Bool) (hv : Valid V edges) (d : Nat) :
    ((List.range V).map fun v => aggregate x edges directed v d * g (v, d)).sum
      = ((List.range V).map fun v => x (v, d) * aggregate g (orient true edges) directed v d).sum := by
  have hz : ((List.range V).map fun _ => (0 : R)).sum = 0 := by simp
  simp only [orient, if_true]
  induction edges with
  | nil => simp [aggregate, neighbours]
  | cons e l ih =>
    have hl := ih fun e' he' => hv e' (by simp [he'])
    have hb := hv e (by simp)
    simp only [List.map_cons, neighbours_cons, Prod.fst_swap, Prod.snd_swap, add_mul, mul_add,
      List.sum_map_add, hl]
    congr 1
    have pick : ∀ (a : Nat) (f : Nat → R), a < V →
        ((List.range V).map fun v => if a = v then f v else 0).sum = f a := by
      intro a f ha
      rw [← sum_single V a ha f]
      congr 1
      apply List.map_congr_left
      intro i _
      simp only [eq_comm]
    have e1 : ((List.range V).map fun v => (if e.1 = v then x (e.2, d) else 0) * g (v, d)).sum
        = x (e.2, d) * g (e.1, d) := by
      rw [← pick e.1 (fun v => x (e.2, d) * g (v, d)) hb.1]
      congr 1; apply List.map_congr_left; intro v _; split <;> simp
    have e2 : ((List.range V).map fun v => x (v, d) * (if e.2 = v then g (e.1, d) else 0)).sum
        = x (e.2, d) * g (e.1, d) := by
      rw [← pick e.2 (fun v => x (v, d) * g (e.1, d)) hb.2]
      congr 1; apply List.map_congr_left; intro v _; split <;> simp
    have e3 : ((List.range V).map fun v => (if e.2 = v then x (e.1, d) else 0) * g (v, d)).sum
        = x (e.1, d) * g (e.2, d) := by
      rw [← pick e.2 (fun v => x (e.1, d) * g (v, d)) hb.2]
      congr 1; apply List.map_congr_left; intro v _; split <;> simp
    have e4 : ((List.range V).map fun v => x (v, d) * (if e.1 = v then g (e.2, d) else 0)).sum
        = x (e.1, d) * g (e.2, d) := by
      rw [← pick e.1 (fun v => x (v, d) * g (e.2, d)) hb.1]
      congr 1; apply List.map_congr_left; intro v _; split <;> simp
    cases directed
    · simp only [Bool.false_eq_true, if_false, e1, e2, e3, e4]
    · simp only [if_true, zero_mul, mul_zero, hz, add_zero, e1, e2]

/-- **C45 (edge order).** Reordering the edges changes nothing; for undirected graphs neither does
the direction in which an edge is stored. -/
theorem aggregate_perm (x : Nat × Nat → R) {edges edges' : List (Nat × Nat)} (directed : Bool)
    (h : edges.Perm edges') (v d : Nat) :
    aggregate x edges directed v d = aggregate x edges' directed v d := by
  unfold aggregate neighbours
  rw [List.map_append, List.map_append, List.sum_append, List.sum_append]
  congr 1
  · exact ((((h.filter _).map _).map _)).sum_eq
  · cases directed
    · exact ((((h.filter _).map _).map _)).sum_eq
    · rfl

theorem aggregate_flip (x : Nat × Nat → R) (e : Nat × Nat) (l r : List (Nat × Nat)) (v d : Nat) :
    aggregate x (l ++ e :: r) false v d = aggregate x (l ++ e.swap :: r) false v d := by
  have h1 := aggregate_perm x (edges := l ++ e :: r) (edges' := e :: (l ++ r)) false
    List.perm_middle v d
  have h2 := aggregate_perm x (edges := l ++ e.swap :: r) (edges' := e.swap :: (l ++ r)) false
    List.perm_middle v d
  rw [h1, h2, neighbours_cons, neighbours_cons]
  simp only [Bool.false_eq_true, if_false, Prod.fst_swap, Prod.snd_swap]
  ring

/-- **C45 (relabelling).** Renaming the vertices of the graph and of the features renames the
result. -/
theorem aggregate_relabel (x : Nat × Nat → R) (edges : List (Nat × Nat)) (directed : Bool)
    (σ τ : Nat → Nat) (hτ : ∀ v, τ (σ v) = v) (v d : Nat) :
    aggregate (fun p => x (τ p.1, p.2)) (edges.map fun e => (σ e.1, σ e.2)) directed (σ v) d
      = aggregate x edges directed v d := by
  have hinj : ∀ a b, σ a = σ b ↔ a = b := fun a b =>
    ⟨fun h => by rw [← hτ a, h, hτ], fun h => by rw [h]⟩
  induction edges with
  | nil => simp [aggregate, neighbours]
  | cons e l ih =>
    rw [List.map_cons, neighbours_cons, neighbours_cons, ih]
    simp only [hinj, hτ]

/-- **C45 (graph convolution).** `GraphConv`: each vertex gets its own linear image plus the sum of
the linear images of its neighbours. -/
theorem graphConv_value {V Din Dout : Nat} (hV : 0 < V) (w0 w1 : Nat × Nat → R) (b0 b1 : Nat → R)
    (verts : Nat × Nat → R) {edges : List (Nat × Nat)} (directed : Bool) (hv : Valid V edges) :
    ∃ out, graphConv V Din Dout w0 w1 b0 b1 verts edges directed = .ok out ∧
      ∀ v d, d < Dout → out (v, d) = linear Din w0 b0 verts (v, d)
        + ((neighbours edges directed v).map fun u => linear Din w1 b1 verts (u, d)).sum := by
  obtain ⟨s, h1, h2⟩ := gsPython_value (D := Dout) (linear Din w1 b1 verts) directed hv
  refine ⟨_, by rw [graphConv, if_neg hV.ne', h1]; rfl, ?_⟩
  intro v d hd
  simp only
  rw [h2 v d hd]
  rfl

/-! ### Concrete cases: a triangle with a tail -/

def exEdges : List (Nat × Nat) := [(0, 1), (1, 2), (2, 0), (2, 3)]

theorem exEdges_valid : Valid 4 exEdges := by unfold Valid; decide
example : (List.range 4).map (fun v => aggregate (fun p => (10 ^ p.1 : Int)) exEdges false v 0)
    = [110, 101, 1011, 100] := by decide
example : (List.range 4).map (fun v => aggregate (fun p => (10 ^ p.1 : Int)) exEdges true v 0)
    = [10, 100, 1001, 0] := by decide
example : scatterAdd (kernelAdds 3 2 2 (fun p => (10 ^ p.1 : Int)) exEdges true true) (3, 1) = 100 := by
  rw [kernel_value (by omega) (by omega) _ _ _ _ _ (List.Perm.refl _) _ _ (by omega)]
  decide

end P3D.GatherScatter
