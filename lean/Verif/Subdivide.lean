/-
`ops/subdivide_meshes.py`: `SubdivideMeshes`.

Simplifications: indices into packed tensors are looked up with `look` (a negative or too large index gives `none`,
where torch would wrap negative ones or raise); the batch is not empty (`Meshes.isempty()` false, some mesh has data);
the mean of two rows is exact.
-/
import Verif.Argsort
import Verif.ChamferProps
import Verif.Vec3
import Mathlib.Algebra.Module.Basic
import Mathlib.Algebra.Field.Basic
import Mathlib.Algebra.Field.Rat
import Mathlib.Tactic.Ring
import Mathlib.Tactic.FieldSimp
import Mathlib.Tactic.LinearCombination

set_option linter.unusedSectionVars false

namespace P3D.Subdivide

open P3D.Meshes P3D.Argsort P3D.StructUtils

variable {K P Q : Type} [Field K] [AddCommGroup P] [Module K P] [AddCommGroup Q] [Module K Q]

/-! ## Model -/

/-- Tensor indexing `l[i]`. -/
def look {X : Type} (l : List X) (i : Int) : Option X := if 0 ≤ i then l[i.toNat]? else none

/-- `x.mean(dim)` over the two end points of an edge. -/
def mean2 (K : Type) {P : Type} [Field K] [AddCommGroup P] [Module K P] (a b : P) : P := (2 : K)⁻¹ • (a + b)

/-- `verts[edges].mean(dim=1)` (`subdivide_meshes.py:298`). -/
def midpoints (K : Type) {P : Type} [Field K] [AddCommGroup P] [Module K P] (verts : List P)
    (edges : List (Int × Int)) : Option (List P) :=
  edges.mapM fun e => do
    let a ← look verts e.1
    let b ← look verts e.2
    pure (mean2 K a b)

/-- `subdivide_meshes.py:113-146`: `V` the number of packed vertices, `f2e` = `faces_packed_to_edges_packed`. -/
def subdivideFaces (V : Nat) (faces : List Face) (f2e : List (Nat × Nat × Nat)) : List Face :=
  let e : List Face := f2e.map fun e => ((e.1 : Int) + V, (e.2.1 : Int) + V, (e.2.2 : Int) + V)
  let f0 : List Face := List.zipWith (fun (f e : Face) => (f.1, e.2.2, e.2.1)) faces e
  let f1 : List Face := List.zipWith (fun (f e : Face) => (f.2.1, e.1, e.2.2)) faces e
  let f2 : List Face := List.zipWith (fun (f e : Face) => (f.2.2, e.2.1, e.1)) faces e
  f0 ++ f1 ++ f2 ++ e

/-- `subdivide_meshes.py:336-374`. -/
def vertsIndex (numVerts numEdges : List Nat) : List Nat :=
  stableArgsort (Abs.meshIdx numVerts ++ Abs.meshIdx numEdges)

/-- `subdivide_meshes.py:377-409`. -/
def facesIndex (numFaces : List Nat) : List Nat :=
  stableArgsort ((List.replicate 4 (Abs.meshIdx numFaces)).flatten)

/-- `ordered[face]`, one face. -/
def lookFace (ordered : List Nat) (f : Face) : Option Face := do
  let a ← look ordered f.1
  let b ← look ordered f.2.1
  let c ← look ordered f.2.2
  pure ((a : Int), (b : Int), (c : Int))

/-- Rows of `x` at the given positions. -/
def gatherRows {X : Type} (x : List X) (idx : List Nat) : Option (List X) := idx.mapM fun i => x[i]?

/-- `subdivide_meshes.py:293-312`: rows of the new vertices (or features), grouped by mesh. -/
def newRows (K : Type) {P : Type} [Field K] [AddCommGroup P] [Module K P] (rows : List P) (edges : List (Int × Int))
    (sortIdx : List Nat) : Option (List P) := do
  let mids ← midpoints K rows edges
  gatherRows (rows ++ mids) sortIdx

/-- `torch.split`, as nested lists (`list_to_padded` module); an error unless the sizes add up. -/
def splitRows {X : Type} (x : List X) (sizes : List Nat) : Option (List (List X)) :=
  (packedToList x sizes).toOption

/-- Faces of the result (`subdivide_meshes.py:246-290, 314-328`). -/
def newFaces (V N : Nat) (faces : List Face) (f2m : List Nat) (E : EdgeView) (numVerts numFaces : List Nat) :
    Option (List (List Face)) := do
  let numEdges := (List.range N).map fun n => E.toMesh.count n
  let newVertsPer := List.zipWith (· + ·) numVerts numEdges
  let ordered := scatterInverse (vertsIndex numVerts numEdges)
  let nf ← (subdivideFaces V faces E.faceToEdge).mapM (lookFace ordered)
  let fidx := facesIndex numFaces
  let nf' ← gatherRows nf fidx
  let f2m' ← gatherRows ((List.replicate 4 f2m).flatten) fidx
  let per := (List.range N).map fun n => f2m'.count n
  let fl ← splitRows nf' per
  pure (List.zipWith (fun (l : List Face) (o : Nat) => l.map fun f => (f.1 - (o : Int), f.2.1 - (o : Int), f.2.2 - (o : Int))) fl
    (0 :: cumsumFrom 0 newVertsPer.dropLast))

/-- `subdivide_heterogenerous` (`subdivide_meshes.py:221-333`): the new vertices and faces of each mesh and the packed
new features. -/
def subdivideHet (K : Type) {P Q : Type} [Field K] [AddCommGroup P] [Module K P] [AddCommGroup Q] [Module K Q]
    (N : Nat) (verts : List P) (faces : List Face) (f2m : List Nat) (E : EdgeView) (numVerts numFaces : List Nat)
    (feats : List Q) : Option (List (List P) × List (List Face) × List Q) := do
  let numEdges := (List.range N).map fun n => E.toMesh.count n
  let sortIdx := vertsIndex numVerts numEdges
  let fl ← newFaces verts.length N faces f2m E numVerts numFaces
  let nv ← newRows K verts E.edges sortIdx
  let nq ← newRows K feats E.edges sortIdx
  let vl ← splitRows nv (List.zipWith (· + ·) numVerts numEdges)
  let ql ← splitRows nq (List.zipWith (· + ·) numVerts numEdges)
  pure (vl, fl, ql.flatten)

/-- One row of `verts[:, edges].mean(dim=2)` appended (`subdivide_meshes.py:190-207`). -/
def homRows (K : Type) {P : Type} [Field K] [AddCommGroup P] [Module K P] (rows : List P) (edges : List (Int × Int)) :
    Option (List P) := do
  let mids ← midpoints K rows edges
  pure (rows ++ mids)

/-- `subdivide_homogeneous` (`subdivide_meshes.py:167-219`) with the faces `pre` computed by the initializer
(`subdivide_meshes.py:44-52`): `verts` and `feats` are the padded tensors, `edges` those of `meshes[0]`. -/
def subdivideHom (K : Type) {P Q : Type} [Field K] [AddCommGroup P] [Module K P] [AddCommGroup Q] [Module K Q]
    (pre : List Face) (verts : List (List P)) (edges : List (Int × Int)) (feats : List (List Q)) :
    Option (List (List P) × List (List Face) × List (List Q)) := do
  let nv ← verts.mapM fun v => homRows K v edges
  let nq ← feats.mapM fun v => homRows K v edges
  pure (nv, List.replicate verts.length pre, nq)

/-! ## Specification -/

/-- The undirected sides of the faces, each once, with ascending end points and in lexicographic order. -/
def IsEdgeList (faces : List Face) (es : List (Int × Int)) : Prop :=
  es.Pairwise LexLt ∧ ∀ p, p ∈ es ↔ p.1 ≤ p.2 ∧ ∃ f ∈ faces, ∃ i, SameEdge p (f.side i)

/-- The corner points of a face. -/
def corners {X : Type} (v : List X) (f : Face) : Option (X × X × X) := do
  let a ← look v f.1
  let b ← look v f.2.1
  let c ← look v f.2.2
  pure (a, b, c)

theorem LexLt.irrefl (p : Int × Int) : ¬ LexLt p p := by unfold LexLt; omega

theorem LexLt.asymm {p q : Int × Int} (h : LexLt p q) (h' : LexLt q p) : False := by unfold LexLt at *; omega

theorem IsEdgeList.unique {faces : List Face} {es es' : List (Int × Int)} (h : IsEdgeList faces es)
    (h' : IsEdgeList faces es') : es = es' := by
  apply List.Perm.eq_of_pairwise (le := LexLt) _ h.1 h'.1
  · rw [List.perm_ext_iff_of_nodup]
    · intro p; rw [h.2, h'.2]
    · exact h.1.imp (fun {a b} hab he => by subst he; exact LexLt.irrefl _ hab)
    · exact h'.1.imp (fun {a b} hab he => by subst he; exact LexLt.irrefl _ hab)
  · intro a b _ _ h1 h2; exact (LexLt.asymm h1 h2).elim

/-- `edges_packed` as computed by `_compute_edges_packed`. -/
def edgesOf (V : Nat) (faces : List Face) : List (Int × Int) :=
  (uniqueSorted (sideHashes V faces)).map (fun x => (x / (V : Int), x % (V : Int)))

theorem edgesOf_isEdgeList {V : Nat} {faces : List Face} (hr : ∀ f ∈ faces, f.InRange V) :
    IsEdgeList faces (edgesOf V faces) :=
  ⟨edges_strict (idx := []) hr 0 [], fun p => edges_mem (idx := []) hr 0 [] p⟩

theorem edges_nodup {faces : List Face} {es : List (Int × Int)} (h : IsEdgeList faces es) : es.Nodup :=
  h.1.imp (fun {a b} hab he => by subst he; exact LexLt.irrefl _ hab)

theorem idxOf_map_inj {X Y : Type} [BEq X] [LawfulBEq X] [BEq Y] [LawfulBEq Y] (g : X → Y) (l : List X) (a : X)
    (h : ∀ b ∈ l, g b = g a → b = a) : (l.map g).idxOf (g a) = l.idxOf a := by
  induction l with
  | nil => rfl
  | cons b l ih =>
    rw [List.map_cons, List.idxOf_cons, List.idxOf_cons, ih (fun c hc => h c (List.mem_cons_of_mem _ hc))]
    by_cases hb : b = a
    · subst hb; simp
    · have : g b ≠ g a := fun e => hb (h b (by simp) e)
      have e1 : (b == a) = false := by simpa using hb
      have e2 : (g b == g a) = false := by simpa using this
      rw [e1, e2]

/-- `faces_packed_to_edges_packed`: position of each side in the edge list. -/
theorem faceToEdge_eq {V : Nat} {faces : List Face} (hr : ∀ f ∈ faces, f.InRange V) (idx : List Nat) (N : Nat)
    (f2m : List Nat) : (computeEdges idx N V faces f2m).faceToEdge = faces.map fun f =>
      ((edgesOf V faces).idxOf (sortPair (f.side 0)), (edgesOf V faces).idxOf (sortPair (f.side 1)),
        (edgesOf V faces).idxOf (sortPair (f.side 2))) := by
  have key : ∀ (k : Nat) (hk : k < faces.length) (i : Fin 3),
      ((sideHashes V faces).map (fun x => (uniqueSorted (sideHashes V faces)).idxOf x)).getD
        (i.val * faces.length + k) 0 = (edgesOf V faces).idxOf (sortPair (faces[k].side i)) := by
    intro k hk i
    rw [List.getD_eq_getElem?_getD, List.getElem?_map, getElem_sideHashes V faces k hk i]
    simp only [Option.map_some, Option.getD_some]
    have hd := decode_side hr (List.getElem_mem hk) i
    unfold edgesOf
    conv_rhs => rw [← hd]
    symm
    apply idxOf_map_inj (fun x : Int => (x / (V : Int), x % (V : Int)))
    intro b hb e
    obtain ⟨e1, e2⟩ := Prod.mk.inj e
    have h1 := Int.mul_ediv_add_emod b V
    have h2 := Int.mul_ediv_add_emod (edgeHash V (sortPair (faces[k].side i))) V
    rw [← h1, ← h2, e1, e2]
  apply List.ext_getElem
  · simp [computeEdges]
  · intro k h1 h2
    have hk : k < faces.length := by simpa using h2
    have k0 := key k hk 0
    have k1 := key k hk 1
    have k2 := key k hk 2
    simp only [Fin.val_zero, Fin.val_one, Fin.val_two, Nat.zero_mul, Nat.zero_add, Nat.one_mul] at k0 k1 k2
    simp only [computeEdges, List.getElem_map, List.getElem_range]
    exact Prod.ext k0 (Prod.ext k1 k2)

/-! ## Bookkeeping of the batch -/

/-- A mesh of the batch with the number of vertices and edges before it. -/
structure Rec (P : Type) where
  vs : List P
  fs : List Face
  o : Nat
  eo : Nat

def Rec.E {P : Type} (r : Rec P) : List (Int × Int) := edgesOf r.vs.length r.fs

def Rec.OK {P : Type} (r : Rec P) : Prop := ∀ f ∈ r.fs, f.InRange r.vs.length

def recs {P : Type} (o eo : Nat) : List (List P) → List (List Face) → List (Rec P)
  | v :: vs, f :: fs => ⟨v, f, o, eo⟩ :: recs (o + v.length) (eo + (edgesOf v.length f).length) vs fs
  | _, _ => []

def shiftE (o : Nat) (p : Int × Int) : Int × Int := (p.1 + o, p.2 + o)

theorem shiftE_inj {o : Nat} {p q : Int × Int} (h : shiftE o p = shiftE o q) : p = q := by
  obtain ⟨a, b⟩ := p; obtain ⟨c, d⟩ := q
  simp only [shiftE, Prod.mk.injEq] at h ⊢
  omega

theorem side_shift (f : Face) (o : Nat) (i : Fin 3) : (f.shift o).side i = shiftE o (f.side i) := by
  fin_cases i <;> rfl

theorem sortPair_shift (p : Int × Int) (o : Nat) : sortPair (shiftE o p) = shiftE o (sortPair p) := by
  obtain ⟨a, b⟩ := p
  unfold sortPair shiftE
  dsimp only
  by_cases h : a ≤ b
  · rw [if_pos h, if_pos (by omega)]
  · rw [if_neg h, if_neg (by omega)]

theorem sameEdge_shift {p q : Int × Int} {o : Nat} : SameEdge (shiftE o p) (shiftE o q) ↔ SameEdge p q := by
  obtain ⟨a, b⟩ := p; obtain ⟨c, d⟩ := q
  simp only [SameEdge, shiftE, Prod.mk.injEq]
  omega

theorem recs_verts {P : Type} (o eo : Nat) (vs : List (List P)) (fs : List (List Face)) (h : fs.length = vs.length) :
    (recs o eo vs fs).map Rec.vs = vs := by
  induction vs generalizing o eo fs with
  | nil => cases fs <;> simp [recs]
  | cons v vs ih =>
    cases fs with
    | nil => simp at h
    | cons f fs => simp [recs, ih _ _ fs (by simpa using h)]

theorem recs_faces {P : Type} (o eo : Nat) (vs : List (List P)) (fs : List (List Face)) (h : fs.length = vs.length) :
    (recs o eo vs fs).map Rec.fs = fs := by
  induction vs generalizing o eo fs with
  | nil => simp at h; subst h; rfl
  | cons v vs ih =>
    cases fs with
    | nil => simp at h
    | cons f fs => simp [recs, ih _ _ fs (by simpa using h)]

theorem recs_packed {P : Type} (o eo : Nat) (vs : List (List P)) (fs : List (List Face)) :
    Abs.facesPackedAux o vs fs = (recs o eo vs fs).flatMap fun r => r.fs.map fun f => f.shift r.o := by
  induction vs generalizing o eo fs with
  | nil => cases fs <;> simp [recs, Abs.facesPackedAux]
  | cons v vs ih =>
    cases fs with
    | nil => simp [recs, Abs.facesPackedAux]
    | cons f fs => simp [recs, Abs.facesPackedAux, ih _ (eo + (edgesOf v.length f).length) fs]

theorem recs_ok {P : Type} (o eo : Nat) (vs : List (List P)) (fs : List (List Face))
    (hok : ∀ (m : Nat) (h1 : m < vs.length) (h2 : m < fs.length), ∀ f ∈ fs[m], f.InRange vs[m].length) :
    ∀ r ∈ recs o eo vs fs, r.OK := by
  induction vs generalizing o eo fs with
  | nil => cases fs <;> simp [recs]
  | cons v vs ih =>
    cases fs with
    | nil => simp [recs]
    | cons f fs =>
      intro r hr
      simp only [recs, List.mem_cons] at hr
      rcases hr with rfl | hr
      · exact hok 0 (by simp) (by simp)
      · refine ih _ _ fs (fun m h1 h2 => ?_) r hr
        exact hok (m + 1) (by simpa using h1) (by simpa using h2)

theorem recs_ge {P : Type} (o eo : Nat) (vs : List (List P)) (fs : List (List Face)) :
    ∀ r ∈ recs o eo vs fs, o ≤ r.o ∧ r.o + r.vs.length ≤ o + (vs.map List.length).sum ∧ eo ≤ r.eo := by
  induction vs generalizing o eo fs with
  | nil => cases fs <;> simp [recs]
  | cons v vs ih =>
    cases fs with
    | nil => simp [recs]
    | cons f fs =>
      intro r hr
      simp only [recs, List.mem_cons] at hr
      simp only [List.map_cons, List.sum_cons]
      rcases hr with rfl | hr
      · dsimp only; omega
      · have := ih _ _ fs r hr
        omega

theorem mem_E {P : Type} {r : Rec P} (h : r.OK) {p : Int × Int} (hp : p ∈ r.E) :
    0 ≤ p.1 ∧ p.1 ≤ p.2 ∧ p.2 < r.vs.length := by
  obtain ⟨h1, f, hf, i, hs⟩ := ((edgesOf_isEdgeList h).2 p).mp hp
  have := side_range (h f hf) i
  rcases hs with hs | hs <;> rw [hs] at h1 ⊢ <;> (try dsimp only at *) <;> (refine ⟨?_, ?_, ?_⟩ <;> omega)

/-- All edges of the batch. -/
def allEdges {P : Type} (rs : List (Rec P)) : List (Int × Int) := rs.flatMap fun r => r.E.map (shiftE r.o)

theorem allEdges_isEdgeList {P : Type} (o eo : Nat) (vs : List (List P)) (fs : List (List Face))
    (hok : ∀ r ∈ recs o eo vs fs, r.OK) :
    IsEdgeList ((recs o eo vs fs).flatMap fun r => r.fs.map fun f => f.shift r.o) (allEdges (recs o eo vs fs)) := by
  constructor
  · unfold allEdges
    rw [List.pairwise_flatMap]
    constructor
    · intro r hr
      rw [List.pairwise_map]
      refine (edgesOf_isEdgeList (hok r hr)).1.imp ?_
      intro p q h
      simp only [LexLt, shiftE] at h ⊢
      omega
    · induction vs generalizing o eo fs with
      | nil => cases fs <;> simp [recs]
      | cons v vs ih =>
        cases fs with
        | nil => simp [recs]
        | cons f fs =>
          simp only [recs] at hok ⊢
          rw [List.pairwise_cons]
          refine ⟨?_, ih _ _ fs (fun r hr => hok r (List.mem_cons_of_mem _ hr))⟩
          intro r hr p hp q hq
          obtain ⟨p, hp', rfl⟩ := List.mem_map.mp hp
          obtain ⟨q, hq', rfl⟩ := List.mem_map.mp hq
          have h1 := mem_E (hok _ List.mem_cons_self) hp'
          have h2 := mem_E (hok _ (List.mem_cons_of_mem _ hr)) hq'
          have h3 := recs_ge _ _ _ _ r hr
          simp only [LexLt, shiftE]
          dsimp only at h1
          omega
  · intro p
    simp only [allEdges, List.mem_flatMap, List.mem_map]
    constructor
    · rintro ⟨r, hr, q, hq, rfl⟩
      obtain ⟨h1, f, hf, i, hs⟩ := ((edgesOf_isEdgeList (hok r hr)).2 q).mp hq
      refine ⟨by simp only [shiftE]; omega, _, ⟨r, hr, f, hf, rfl⟩, i, ?_⟩
      rw [side_shift, sameEdge_shift]; exact hs
    · rintro ⟨h1, _, ⟨r, hr, f, hf, rfl⟩, i, hs⟩
      refine ⟨r, hr, (p.1 - r.o, p.2 - r.o), ?_, by simp [shiftE]⟩
      have hp : p = shiftE r.o (p.1 - r.o, p.2 - r.o) := by simp [shiftE]
      rw [side_shift, hp, sameEdge_shift] at hs
      exact ((edgesOf_isEdgeList (hok r hr)).2 _).mpr ⟨by dsimp only; omega, f, hf, i, hs⟩

theorem allEdges_idxOf {P : Type} (o eo : Nat) (vs : List (List P)) (fs : List (List Face))
    (hok : ∀ r ∈ recs o eo vs fs, r.OK) : ∀ r ∈ recs o eo vs fs, ∀ p ∈ r.E,
      (allEdges (recs o eo vs fs)).idxOf (shiftE r.o p) + eo = r.eo + r.E.idxOf p := by
  induction vs generalizing o eo fs with
  | nil => cases fs <;> simp [recs]
  | cons v vs ih =>
    cases fs with
    | nil => simp [recs]
    | cons f fs =>
      intro r hr p hp
      have hok' : ∀ r ∈ recs (o + v.length) (eo + (edgesOf v.length f).length) vs fs, r.OK := by
        intro r hr
        apply hok; simp only [recs]; exact List.mem_cons_of_mem _ hr
      have hr' := hr
      simp only [recs, List.mem_cons] at hr
      simp only [recs, allEdges, List.flatMap_cons]
      rcases hr with rfl | hr
      · rw [List.idxOf_append_of_mem (List.mem_map_of_mem hp),
          idxOf_map_inj (shiftE o) _ p (fun b _ h => shiftE_inj h)]
        exact Nat.add_comm _ _
      · have hge := recs_ge _ _ _ _ r hr
        have hpE := mem_E (hok' r hr) hp
        rw [List.idxOf_append_of_notMem]
        · have := ih _ _ fs hok' r hr p hp
          simp only [allEdges] at this
          simp only [List.length_map, Rec.E] at this ⊢
          omega
        · intro hm
          obtain ⟨q, hq, he⟩ := List.mem_map.mp hm
          have hqE := mem_E (hok _ (by simp only [recs]; exact List.mem_cons_self)) hq
          simp only [shiftE, Prod.mk.injEq] at he
          dsimp only at hqE
          omega

theorem length_allEdges {P : Type} (rs : List (Rec P)) : (allEdges rs).length = (rs.map fun r => r.E.length).sum := by
  simp [allEdges, List.length_flatMap]

/-! ## Option-valued traversals -/

theorem mapM_iff {X Y : Type} (l : List X) (f : X → Option Y) (l' : List Y) :
    l.mapM f = some l' ↔ l.map f = l'.map some := by
  induction l generalizing l' with
  | nil => cases l' <;> simp
  | cons a l ih =>
    rw [List.mapM_cons]
    cases hfa : f a with
    | none => cases l' <;> simp [hfa]
    | some b =>
      cases l' with
      | nil => cases h : List.mapM f l <;> simp
      | cons c l' =>
        cases h : List.mapM f l with
        | none =>
          simp only [List.map_cons, hfa, List.cons.injEq, Option.some.injEq]
          constructor
          · intro e; simp at e
          · rintro ⟨_, e⟩
            rw [← ih, h] at e
            cases e
        | some d =>
          have := ih d
          simp only [h, true_iff] at this
          simp only [List.map_cons, hfa, List.cons.injEq, Option.some.injEq, this]
          constructor
          · intro e
            simp at e
            simp [e]
          · rintro ⟨rfl, e⟩
            have := List.map_injective_iff.mpr (Option.some_injective _) e
            subst this; rfl

theorem look_nat {X : Type} (l : List X) (i : Nat) : look l (i : Int) = l[i]? := by simp [look]

theorem look_of_nonneg {X : Type} (l : List X) (i : Int) (h : 0 ≤ i) : look l i = l[i.toNat]? := by simp [look, h]

/-- Splitting a concatenation at the block sizes. -/
theorem splitRows_flatten {X : Type} (A : List (List X)) (n : List Nat) (h : n = A.map List.length) :
    splitRows A.flatten n = some A := by
  subst h
  unfold splitRows packedToList
  rw [if_pos (by rw [List.length_flatten]), packedToList_go_flatten]
  rfl

/-! ## Order of the new vertices -/

theorem count_meshIdx_aux (l : List Nat) (j n : Nat) :
    (((l.zipIdx j).map fun p => List.replicate p.1 p.2).flatten).count n = if j ≤ n then l.getD (n - j) 0 else 0 := by
  induction l generalizing j with
  | nil => simp
  | cons a l ih =>
    simp only [List.zipIdx_cons, List.map_cons, List.flatten_cons, List.count_append, List.count_replicate, ih]
    by_cases h : j = n
    · subst h; simp
    · have h' : (j == n) = false := by simpa using h
      by_cases h2 : j ≤ n
      · have e : n - j = (n - (j + 1)) + 1 := by omega
        rw [if_pos (by omega : j + 1 ≤ n), if_pos h2, e]; simp [h']
      · rw [if_neg (by omega : ¬ j + 1 ≤ n), if_neg h2]; simp [h']

theorem count_meshIdx (l : List Nat) (n : Nat) : (Abs.meshIdx l).count n = l.getD n 0 := by
  have := count_meshIdx_aux l 0 n
  simpa [Abs.meshIdx] using this

theorem range_counts (l : List Nat) : ((List.range l.length).map fun n => l.getD n 0) = l := by
  apply List.ext_getElem
  · simp
  · intro i h1 h2; simp [List.getD_eq_getElem?_getD, h2]

theorem recs_get {P : Type} (o eo : Nat) (vs : List (List P)) (fs : List (List Face)) (m : Nat) (r : Rec P)
    (h : (recs o eo vs fs)[m]? = some r) :
    vs[m]? = some r.vs ∧ r.o = o + ((vs.take m).map List.length).sum ∧
      r.eo = eo + (((recs o eo vs fs).take m).map fun r => r.E.length).sum := by
  induction vs generalizing o eo fs m with
  | nil => cases fs <;> simp [recs] at h
  | cons v vs ih =>
    cases fs with
    | nil => simp [recs] at h
    | cons f fs =>
      cases m with
      | zero =>
        simp only [recs, List.getElem?_cons_zero, Option.some.injEq] at h
        subst h
        simp
      | succ m =>
        simp only [recs, List.getElem?_cons_succ] at h
        obtain ⟨h1, h2, h3⟩ := ih _ _ fs m h
        refine ⟨by simpa using h1, ?_, ?_⟩
        · simp only [List.take_succ_cons, List.map_cons, List.sum_cons]; omega
        · simp only [recs, List.take_succ_cons, List.map_cons, List.sum_cons]
          rw [h3]
          simp only [Rec.E]; omega

section Batch

variable {R : Type} (a : Abs R)

/-- The meshes of the batch with their offsets. -/
def batch : List (Rec R) := recs 0 0 a.verts a.faces

variable {a} (hlen : a.faces.length = a.verts.length) (hok : a.FacesOK)

include hlen hok

theorem batch_ok : ∀ r ∈ batch a, r.OK := recs_ok 0 0 a.verts a.faces hok

omit hok in
theorem length_batch : (batch a).length = a.verts.length := by
  have := congrArg List.length (recs_verts 0 0 a.verts a.faces hlen)
  simpa [batch] using this

omit hlen hok in
theorem batch_faces : a.facesPacked = (batch a).flatMap fun r => r.fs.map fun f => f.shift r.o :=
  recs_packed 0 0 a.verts a.faces

omit hok in
theorem batch_numVerts : (a.verts.map List.length) = (batch a).map fun r => r.vs.length := by
  conv_lhs => rw [← recs_verts 0 0 a.verts a.faces hlen]
  rw [List.map_map]; rfl

omit hok in
theorem batch_numFaces : (a.faces.map List.length) = (batch a).map fun r => r.fs.length := by
  conv_lhs => rw [← recs_faces 0 0 a.verts a.faces hlen]
  rw [List.map_map]; rfl

/-- The edges of the batch are those of the meshes, shifted. -/
theorem batch_edgesOf : edgesOf a.vertsPacked.length a.facesPacked = allEdges (batch a) := by
  have h1 := edgesOf_isEdgeList (facesPacked_ok a hlen hok).1
  have h2 := allEdges_isEdgeList 0 0 a.verts a.faces (batch_ok hlen hok)
  rw [← recs_packed] at h2
  exact h1.unique h2

/-- Number of edges per mesh, as the code counts it. -/
theorem batch_toMesh (idx : List Nat) (hidx : IsSortIdx (sideHashes a.vertsPacked.length a.facesPacked) idx) :
    (computeEdges idx a.verts.length a.vertsPacked.length a.facesPacked
      (Abs.meshIdx (a.faces.map List.length))).toMesh = Abs.meshIdx ((batch a).map fun r => r.E.length) := by
  obtain ⟨hr, hown, hl⟩ := facesPacked_ok a hlen hok
  rw [toMesh_spec hr _ _ hl _ hown hidx]
  have e : (computeEdges idx a.verts.length a.vertsPacked.length a.facesPacked
      (Abs.meshIdx (a.faces.map List.length))).edges = allEdges (batch a) := batch_edgesOf hlen hok
  rw [e]
  unfold allEdges Abs.meshIdx
  rw [List.map_flatMap, List.flatMap_def]
  congr 1
  rw [List.zipIdx_map, List.map_map]
  have e2 : (batch a).map (fun r => (r.E.map (shiftE r.o)).map fun p => owner (a.verts.map List.length) p.1)
      = (batch a).zipIdx.map (fun p => (p.1.E.map (shiftE p.1.o)).map fun q => owner (a.verts.map List.length) q.1) := by
    conv_lhs => rw [← List.zipIdx_map_fst 0 (batch a)]
    rw [List.map_map]; rfl
  rw [e2]
  apply List.map_congr_left
  rintro ⟨r, m⟩ hrm
  rw [List.mem_zipIdx_iff_getElem?] at hrm
  obtain ⟨h1, h2, _⟩ := recs_get 0 0 a.verts a.faces m r hrm
  have hml : m < a.verts.length := (List.getElem?_eq_some_iff.mp h1).1
  have hv := (List.getElem?_eq_some_iff.mp h1).2
  have hr := batch_ok hlen hok r (List.mem_of_getElem? hrm)
  simp only [Function.comp, List.map_map, Prod.map]
  apply List.eq_replicate_iff.mpr
  refine ⟨by simp, ?_⟩
  intro b hb
  obtain ⟨p, hp, rfl⟩ := List.mem_map.mp hb
  have hE := mem_E hr hp
  have := owner_block (a.verts.map List.length) m (by simpa using hml) p.1 hE.1 (by simp [hv]; omega)
  rw [← List.map_take] at this
  simp only [Function.comp, shiftE, h2, Nat.zero_add]
  simpa using this

theorem batch_numEdges (idx : List Nat)
    (hidx : IsSortIdx (sideHashes a.vertsPacked.length a.facesPacked) idx) :
    ((List.range a.verts.length).map fun n => (computeEdges idx a.verts.length a.vertsPacked.length a.facesPacked
      (Abs.meshIdx (a.faces.map List.length))).toMesh.count n) = (batch a).map fun r => r.E.length := by
  rw [batch_toMesh hlen hok idx hidx]
  simp only [count_meshIdx]
  have : a.verts.length = ((batch a).map fun r => r.E.length).length := by simp [length_batch hlen]
  rw [this, range_counts]

omit hlen hok in
theorem flatten_range_verts (o eo : Nat) (vs : List (List R)) (fs : List (List Face)) (h : fs.length = vs.length) :
    ((recs o eo vs fs).map fun r => List.range' r.o r.vs.length).flatten = List.range' o (vs.map List.length).sum := by
  induction vs generalizing o eo fs with
  | nil => cases fs <;> simp [recs]
  | cons v vs ih =>
    cases fs with
    | nil => simp at h
    | cons f fs =>
      simp only [recs, List.map_cons, List.flatten_cons, List.sum_cons]
      rw [ih _ _ fs (by simpa using h), List.range'_append_1]

omit hlen hok in
theorem flatten_range_edges (V o eo : Nat) (vs : List (List R)) (fs : List (List Face)) :
    ((recs o eo vs fs).map fun r => List.range' (V + r.eo) r.E.length).flatten
      = List.range' (V + eo) ((recs o eo vs fs).map fun r => r.E.length).sum := by
  induction vs generalizing o eo fs with
  | nil => cases fs <;> simp [recs]
  | cons v vs ih =>
    cases fs with
    | nil => simp [recs]
    | cons f fs =>
      simp only [recs, List.map_cons, List.flatten_cons, List.sum_cons]
      rw [ih _ _ fs, ← Nat.add_assoc]
      simp only [Rec.E]
      rw [List.range'_append_1]

/-- The order of the new vertices: for each mesh its old vertices, then its edges. -/
def order (rs : List (Rec R)) (V : Nat) : List (List Nat) :=
  rs.map fun r => List.range' r.o r.vs.length ++ List.range' (V + r.eo) r.E.length

omit hok in
theorem vertsIndex_eq : vertsIndex (a.verts.map List.length) ((batch a).map fun r => r.E.length)
    = (order (batch a) a.vertsPacked.length).flatten := by
  have hV : a.vertsPacked.length = (a.verts.map List.length).sum := by
    simp [Abs.vertsPacked, List.length_flatten]
  have hA : ((batch a).map fun r => List.range' r.o r.vs.length).map List.length = a.verts.map List.length := by
    rw [batch_numVerts hlen, List.map_map]
    apply List.map_congr_left; intro r _; simp
  have hB : ((batch a).map fun r => List.range' (a.vertsPacked.length + r.eo) r.E.length).map List.length
      = (batch a).map fun r => r.E.length := by
    rw [List.map_map]
    apply List.map_congr_left; intro r _; simp
  have hfl : ((batch a).map fun r => List.range' r.o r.vs.length).flatten
        ++ ((batch a).map fun r => List.range' (a.vertsPacked.length + r.eo) r.E.length).flatten
      = List.range (a.vertsPacked.length + ((batch a).map fun r => r.E.length).sum) := by
    unfold batch
    rw [flatten_range_verts 0 0 a.verts a.faces hlen, flatten_range_edges, ← hV, Nat.add_zero,
      List.range_eq_range']
    have := List.range'_append_1 (s := 0) (m := a.vertsPacked.length)
      (n := ((recs 0 0 a.verts a.faces).map fun r => r.E.length).sum)
    rw [Nat.zero_add] at this
    exact this
  have key := regroup2 ((batch a).map fun r => List.range' r.o r.vs.length)
    ((batch a).map fun r => List.range' (a.vertsPacked.length + r.eo) r.E.length) (by simp)
  rw [hA, hB, hfl] at key
  have hz : List.zipWith (· ++ ·) ((batch a).map fun r => List.range' r.o r.vs.length)
      ((batch a).map fun r => List.range' (a.vertsPacked.length + r.eo) r.E.length)
      = order (batch a) a.vertsPacked.length := by
    unfold order
    rw [List.zipWith_map, List.zipWith_self]
  rw [hz] at key
  have hid : (stableArgsort (Abs.meshIdx (a.verts.map List.length) ++ Abs.meshIdx ((batch a).map fun r => r.E.length))).map
      (fun i => (List.range (a.vertsPacked.length + ((batch a).map fun r => r.E.length).sum))[i]?)
      = (stableArgsort (Abs.meshIdx (a.verts.map List.length)
          ++ Abs.meshIdx ((batch a).map fun r => r.E.length))).map some := by
    apply List.map_congr_left
    intro i hi
    have := (stableArgsort_perm _).mem_iff.mp hi
    rw [List.mem_range, List.length_append, length_meshIdx, length_meshIdx, ← hV] at this
    rw [List.getElem?_range this]
  rw [hid] at key
  exact List.map_injective_iff.mpr (Option.some_injective _) key

omit hlen hok in
theorem order_offset (m : Nat) (r : Rec R) (V : Nat) (h : (batch a)[m]? = some r) :
    offset (order (batch a) V) m = r.o + r.eo := by
  obtain ⟨h1, h2, h3⟩ := recs_get 0 0 a.verts a.faces m r h
  have gen : ∀ (o eo : Nat) (vs : List (List R)) (fs : List (List Face)) (m : Nat) (r : Rec R),
      (recs o eo vs fs)[m]? = some r → offset (order (recs o eo vs fs) V) m + o + eo = r.o + r.eo := by
    intro o eo vs
    induction vs generalizing o eo with
    | nil => intro fs m r h; cases fs <;> simp [recs] at h
    | cons v vs ih =>
      intro fs m r h
      cases fs with
      | nil => simp [recs] at h
      | cons f fs =>
        cases m with
        | zero =>
          simp only [recs, List.getElem?_cons_zero, Option.some.injEq] at h
          subst h
          simp [offset]
        | succ m =>
          simp only [recs, List.getElem?_cons_succ] at h
          have := ih _ _ fs m r h
          simp only [offset, order, recs, List.map_cons, List.take_succ_cons, List.sum_cons, List.length_append,
            List.length_range', Rec.E] at this ⊢
          omega
  have := gen 0 0 a.verts a.faces m r h
  simpa [batch] using this

/-- The new number of an old vertex. -/
theorem ordered_vert {r : Rec R} (hr : r ∈ batch a) (j : Nat) (hj : j < r.vs.length) :
    (scatterInverse (vertsIndex (a.verts.map List.length) ((batch a).map fun r => r.E.length)))[r.o + j]?
      = some (r.o + r.eo + j) := by
  obtain ⟨m, hm⟩ := List.getElem?_of_mem hr
  apply scatterInverse_get
  · have := stableArgsort_perm (Abs.meshIdx (a.verts.map List.length) ++ Abs.meshIdx ((batch a).map fun r => r.E.length))
    have hl := this.length_eq
    rw [List.length_range] at hl
    unfold vertsIndex
    rw [hl]; exact this
  · rw [vertsIndex_eq hlen]
    obtain ⟨hmb, hmr⟩ := List.getElem?_eq_some_iff.mp hm
    have hmo : m < (order (batch a) a.vertsPacked.length).length := by simpa [order] using hmb
    have hel : (order (batch a) a.vertsPacked.length)[m] = List.range' r.o r.vs.length
        ++ List.range' (a.vertsPacked.length + r.eo) r.E.length := by simp [order, hmr]
    have := flatten_getElem?_offset (order (batch a) a.vertsPacked.length) m j hmo (by rw [hel]; simp; omega)
    rw [order_offset m r _ hm] at this
    rw [this]
    simp only [hel]
    rw [List.getElem_append_left (by simpa using hj)]
    simp

/-- The new number of an edge midpoint. -/
theorem ordered_edge {r : Rec R} (hr : r ∈ batch a) (j : Nat) (hj : j < r.E.length) :
    (scatterInverse (vertsIndex (a.verts.map List.length) ((batch a).map fun r => r.E.length)))[
        a.vertsPacked.length + r.eo + j]? = some (r.o + r.eo + (r.vs.length + j)) := by
  obtain ⟨m, hm⟩ := List.getElem?_of_mem hr
  apply scatterInverse_get
  · have := stableArgsort_perm (Abs.meshIdx (a.verts.map List.length) ++ Abs.meshIdx ((batch a).map fun r => r.E.length))
    have hl := this.length_eq
    rw [List.length_range] at hl
    unfold vertsIndex
    rw [hl]; exact this
  · rw [vertsIndex_eq hlen]
    obtain ⟨hmb, hmr⟩ := List.getElem?_eq_some_iff.mp hm
    have hmo : m < (order (batch a) a.vertsPacked.length).length := by simpa [order] using hmb
    have hel : (order (batch a) a.vertsPacked.length)[m] = List.range' r.o r.vs.length
        ++ List.range' (a.vertsPacked.length + r.eo) r.E.length := by simp [order, hmr]
    have := flatten_getElem?_offset (order (batch a) a.vertsPacked.length) m (r.vs.length + j) hmo
      (by rw [hel]; simp; omega)
    rw [order_offset m r _ hm] at this
    rw [this]
    simp only [hel]
    rw [List.getElem_append_right (by simp)]
    simp

omit hlen hok in
/-- The `j`-th subface of a face: `V` the number of old vertices, `es` the edge list. -/
def sub (V : Nat) (es : List (Int × Int)) (j : Fin 4) (f : Face) : Face :=
  let e0 : Int := es.idxOf (sortPair (f.side 0)) + V
  let e1 : Int := es.idxOf (sortPair (f.side 1)) + V
  let e2 : Int := es.idxOf (sortPair (f.side 2)) + V
  match j with
  | 0 => (f.1, e2, e1)
  | 1 => (f.2.1, e0, e2)
  | 2 => (f.2.2, e1, e0)
  | 3 => (e0, e1, e2)

omit hlen hok in
theorem subdivideFaces_map (V : Nat) (faces : List Face) (es : List (Int × Int)) :
    subdivideFaces V faces (faces.map fun f => (es.idxOf (sortPair (f.side 0)), es.idxOf (sortPair (f.side 1)),
        es.idxOf (sortPair (f.side 2))))
      = faces.map (sub V es 0) ++ faces.map (sub V es 1) ++ faces.map (sub V es 2) ++ faces.map (sub V es 3) := by
  unfold subdivideFaces
  simp only [List.zipWith_map_right, List.zipWith_self, List.map_map]
  rfl

/-- Renumbering a subface of the batch gives the subface computed for the mesh alone, shifted. -/
theorem lookFace_sub {r : Rec R} (hr : r ∈ batch a) {f : Face} (hf : f ∈ r.fs) (j : Fin 4) :
    lookFace (scatterInverse (vertsIndex (a.verts.map List.length) ((batch a).map fun r => r.E.length)))
        (sub a.vertsPacked.length (allEdges (batch a)) j (f.shift r.o))
      = some ((sub r.vs.length r.E j f).shift (r.o + r.eo)) := by
  have hrok := batch_ok hlen hok r hr
  have hmem : ∀ i, sortPair (f.side i) ∈ r.E := by
    intro i
    exact ((edgesOf_isEdgeList hrok).2 _).mpr ⟨sortPair_le _, f, hf, i, sortPair_same _⟩
  have hE : ∀ i, look (scatterInverse (vertsIndex (a.verts.map List.length) ((batch a).map fun r => r.E.length)))
      (((allEdges (batch a)).idxOf (sortPair ((f.shift r.o).side i)) : Int) + a.vertsPacked.length)
      = some (r.o + r.eo + (r.vs.length + r.E.idxOf (sortPair (f.side i)))) := by
    intro i
    have h1 := allEdges_idxOf 0 0 a.verts a.faces (batch_ok hlen hok) r hr _ (hmem i)
    rw [side_shift, sortPair_shift]
    have e : (((allEdges (batch a)).idxOf (shiftE r.o (sortPair (f.side i))) : Int) + a.vertsPacked.length)
        = ((a.vertsPacked.length + r.eo + r.E.idxOf (sortPair (f.side i)) : Nat) : Int) := by
      unfold batch
      push_cast; omega
    rw [e, look_nat]
    exact ordered_edge hlen hok hr _ (List.idxOf_lt_length_of_mem (hmem i))
  have hv : ∀ v : Int, 0 ≤ v → v < r.vs.length →
      look (scatterInverse (vertsIndex (a.verts.map List.length) ((batch a).map fun r => r.E.length))) (v + r.o)
        = some (r.o + r.eo + v.toNat) := by
    intro v h0 h1
    have e : v + (r.o : Int) = ((r.o + v.toNat : Nat) : Int) := by push_cast; omega
    rw [e, look_nat]
    exact ordered_vert hlen hok hr _ (by omega)
  obtain ⟨⟨a0, a1⟩, ⟨b0, b1⟩, ⟨c0, c1⟩⟩ := hrok f hf
  have va := hv _ a0 a1
  have vb := hv _ b0 b1
  have vc := hv _ c0 c1
  have e0 := hE 0
  have e1 := hE 1
  have e2 := hE 2
  fin_cases j
  · simp only [lookFace, sub, Face.shift] at va vb vc e0 e1 e2 ⊢
    rw [va, e2, e1]
    simp only [Option.bind_eq_bind, Option.bind_some, Option.pure_def, Option.some.injEq, Prod.mk.injEq]
    omega
  · simp only [lookFace, sub, Face.shift] at va vb vc e0 e1 e2 ⊢
    rw [vb, e0, e2]
    simp only [Option.bind_eq_bind, Option.bind_some, Option.pure_def, Option.some.injEq, Prod.mk.injEq]
    omega
  · simp only [lookFace, sub, Face.shift] at va vb vc e0 e1 e2 ⊢
    rw [vc, e1, e0]
    simp only [Option.bind_eq_bind, Option.bind_some, Option.pure_def, Option.some.injEq, Prod.mk.injEq]
    omega
  · simp only [lookFace, sub, Face.shift] at va vb vc e0 e1 e2 ⊢
    rw [e0, e1, e2]
    simp only [Option.bind_eq_bind, Option.bind_some, Option.pure_def, Option.some.injEq, Prod.mk.injEq]
    omega

/-- The subfaces of kind `j` of a mesh, numbered in the new packed order. -/
def subBlock (j : Fin 4) (r : Rec R) : List Face := r.fs.map fun f => (sub r.vs.length r.E j f).shift (r.o + r.eo)

/-- The subdivided faces of one mesh. -/
def localFaces (V : Nat) (fs : List Face) : List Face :=
  fs.map (sub V (edgesOf V fs) 0) ++ fs.map (sub V (edgesOf V fs) 1) ++ fs.map (sub V (edgesOf V fs) 2)
    ++ fs.map (sub V (edgesOf V fs) 3)

theorem lookFaces_batch (j : Fin 4) :
    (a.facesPacked.map (sub a.vertsPacked.length (allEdges (batch a)) j)).map
        (lookFace (scatterInverse (vertsIndex (a.verts.map List.length) ((batch a).map fun r => r.E.length))))
      = (((batch a).map (subBlock j)).flatten).map some := by
  rw [batch_faces, ← List.flatMap_def, List.map_flatMap, List.map_flatMap, List.map_flatMap]
  apply P3D.Scatter.flatMap_congr'
  intro r hr
  unfold subBlock
  simp only [List.map_map]
  apply List.map_congr_left
  intro f hf
  exact lookFace_sub hlen hok hr hf j

omit hlen hok in
theorem flatMap_range_map {X : Type} (rs : List (Rec R)) (b0 b1 b2 b3 : Rec R → List X) :
    ((List.range (rs.map b0).length).flatMap fun m => (rs.map b0).getD m [] ++ (rs.map b1).getD m []
        ++ (rs.map b2).getD m [] ++ (rs.map b3).getD m [])
      = (rs.map fun r => b0 r ++ b1 r ++ b2 r ++ b3 r).flatten := by
  rw [← flatMap_range_getD (rs.map fun r => b0 r ++ b1 r ++ b2 r ++ b3 r)]
  simp only [List.length_map]
  apply P3D.Scatter.flatMap_congr'
  intro m hm
  rw [List.mem_range] at hm
  simp [List.getD_eq_getElem?_getD, hm]

omit hlen hok in
theorem idxBlocks_flatten (l : List Nat) : (idxBlocks l).flatten = Abs.meshIdx l := rfl

omit hok in
theorem firsts_eq (hne : a.verts ≠ []) :
    0 :: cumsumFrom 0 (List.zipWith (· + ·) (a.verts.map List.length) ((batch a).map fun r => r.E.length)).dropLast
      = (batch a).map fun r => r.o + r.eo := by
  have hne' : List.zipWith (· + ·) (a.verts.map List.length) ((batch a).map fun r => r.E.length) ≠ [] := by
    intro h
    have h0 := congrArg List.length h
    simp [length_batch hlen] at h0
    exact hne h0
  rw [firstIdx_eq _ hne']
  have hz : List.zipWith (· + ·) (a.verts.map List.length) ((batch a).map fun r => r.E.length)
      = (order (batch a) 0).map List.length := by
    rw [batch_numVerts hlen, List.zipWith_map, List.zipWith_self]
    unfold order
    rw [List.map_map]
    apply List.map_congr_left; intro r _; simp
  rw [hz]
  apply List.ext_getElem
  · simp [order]
  · intro m h1 h2
    have hm : m < (batch a).length := by simpa using h2
    simp only [List.getElem_map, List.getElem_range]
    rw [← List.map_take]
    exact order_offset m _ 0 (List.getElem?_eq_getElem hm)

theorem newFaces_eq (hne : a.verts ≠ []) (idx : List Nat)
    (hidx : IsSortIdx (sideHashes a.vertsPacked.length a.facesPacked) idx) :
    newFaces a.vertsPacked.length a.verts.length a.facesPacked (Abs.meshIdx (a.faces.map List.length))
      (computeEdges idx a.verts.length a.vertsPacked.length a.facesPacked (Abs.meshIdx (a.faces.map List.length)))
      (a.verts.map List.length) (a.faces.map List.length)
      = some ((batch a).map fun r => localFaces r.vs.length r.fs) := by
  have hE := batch_edgesOf hlen hok
  have hF := faceToEdge_eq (facesPacked_ok a hlen hok).1 idx a.verts.length (Abs.meshIdx (a.faces.map List.length))
  rw [hE] at hF
  unfold newFaces
  simp only [Option.bind_eq_bind, batch_numEdges hlen hok idx hidx, hF, subdivideFaces_map]
  -- the four groups of faces
  have h1 : (a.facesPacked.map (sub a.vertsPacked.length (allEdges (batch a)) 0)
      ++ a.facesPacked.map (sub a.vertsPacked.length (allEdges (batch a)) 1)
      ++ a.facesPacked.map (sub a.vertsPacked.length (allEdges (batch a)) 2)
      ++ a.facesPacked.map (sub a.vertsPacked.length (allEdges (batch a)) 3)).mapM
        (lookFace (scatterInverse (vertsIndex (a.verts.map List.length) ((batch a).map fun r => r.E.length))))
      = some (((batch a).map (subBlock 0)).flatten ++ ((batch a).map (subBlock 1)).flatten
        ++ ((batch a).map (subBlock 2)).flatten ++ ((batch a).map (subBlock 3)).flatten) := by
    rw [mapM_iff]
    simp only [List.map_append, lookFaces_batch hlen hok]
  rw [h1]
  simp only [Option.bind_some]
  have hlenB : ∀ j : Fin 4, ((batch a).map (subBlock j)).map List.length = a.faces.map List.length := by
    intro j
    rw [batch_numFaces hlen, List.map_map]
    apply List.map_congr_left; intro r _; simp [subBlock]
  have h2 : gatherRows (((batch a).map (subBlock 0)).flatten ++ ((batch a).map (subBlock 1)).flatten
        ++ ((batch a).map (subBlock 2)).flatten ++ ((batch a).map (subBlock 3)).flatten)
        (facesIndex (a.faces.map List.length))
      = some ((batch a).map fun r => subBlock 0 r ++ subBlock 1 r ++ subBlock 2 r ++ subBlock 3 r).flatten := by
    unfold gatherRows facesIndex
    rw [mapM_iff, ← flatMap_range_map, ← hlenB 0]
    exact regroup4 _ _ _ _ (by rw [hlenB, hlenB]) (by rw [hlenB, hlenB]) (by rw [hlenB, hlenB])
  rw [h2]
  simp only [Option.bind_some]
  have hlenI : (idxBlocks (a.faces.map List.length)).map List.length = a.faces.map List.length := idxBlocks_lengths _
  have hreg := regroup4 (idxBlocks (a.faces.map List.length)) (idxBlocks (a.faces.map List.length))
    (idxBlocks (a.faces.map List.length)) (idxBlocks (a.faces.map List.length)) rfl rfl rfl
  rw [hlenI, idxBlocks_flatten] at hreg
  have h3 : ∃ g, gatherRows ((List.replicate 4 (Abs.meshIdx (a.faces.map List.length))).flatten)
      (facesIndex (a.faces.map List.length)) = some g ∧ ((List.range a.verts.length).map fun n => g.count n)
        = (a.faces.map List.length).map (4 * ·) := by
    refine ⟨(List.range (idxBlocks (a.faces.map List.length)).length).flatMap fun m =>
        (idxBlocks (a.faces.map List.length)).getD m [] ++ (idxBlocks (a.faces.map List.length)).getD m []
        ++ (idxBlocks (a.faces.map List.length)).getD m [] ++ (idxBlocks (a.faces.map List.length)).getD m [], ?_, ?_⟩
    · unfold gatherRows facesIndex
      rw [mapM_iff, ← hreg]
      have e : (List.replicate 4 (Abs.meshIdx (a.faces.map List.length))).flatten
          = Abs.meshIdx (a.faces.map List.length) ++ Abs.meshIdx (a.faces.map List.length)
            ++ Abs.meshIdx (a.faces.map List.length) ++ Abs.meshIdx (a.faces.map List.length) := by
        simp [List.replicate_succ]
      rw [e]
    · apply List.ext_getElem
      · simp [hlen]
      · intro n h1 h2
        have hn : n < (a.faces.map List.length).length := by simpa using h2
        simp only [List.getElem_map, List.getElem_range]
        have hcnt : ∀ l : List Nat, ((List.range (idxBlocks l).length).flatMap fun m =>
            (idxBlocks l).getD m [] ++ (idxBlocks l).getD m [] ++ (idxBlocks l).getD m []
              ++ (idxBlocks l).getD m []).count n = 4 * (Abs.meshIdx l).count n := by
          intro l
          rw [← idxBlocks_flatten, ← flatMap_range_getD (idxBlocks l)]
          generalize List.range (idxBlocks l).length = rg
          induction rg with
          | nil => simp
          | cons m rg ih => simp only [List.flatMap_cons, List.count_append, ih]; omega
        rw [hcnt, count_meshIdx]
        have hn' : n < a.faces.length := by simpa using hn
        simp [List.getD_eq_getElem?_getD, List.getElem?_eq_getElem hn']
  obtain ⟨g, hg, hgc⟩ := h3
  rw [hg]
  simp only [Option.bind_some, hgc]
  rw [splitRows_flatten]
  · simp only [Option.bind_some, Option.pure_def, Option.some.injEq]
    rw [firsts_eq hlen hne, List.zipWith_map, List.zipWith_self]
    apply List.map_congr_left
    intro r _
    have hsub : ∀ f : Face, ((f.shift (r.o + r.eo)).1 - ((r.o + r.eo : Nat) : Int),
        (f.shift (r.o + r.eo)).2.1 - ((r.o + r.eo : Nat) : Int),
        (f.shift (r.o + r.eo)).2.2 - ((r.o + r.eo : Nat) : Int)) = f := by
      rintro ⟨x, y, z⟩
      simp only [Face.shift, Prod.mk.injEq]; omega
    simp only [subBlock, List.map_append, List.map_map, localFaces]
    congr 1
    · congr 1
      · congr 1
        · apply List.map_congr_left; intro f _; exact hsub _
        · apply List.map_congr_left; intro f _; exact hsub _
      · apply List.map_congr_left; intro f _; exact hsub _
    · apply List.map_congr_left; intro f _; exact hsub _
  · rw [batch_numFaces hlen, List.map_map, List.map_map]
    apply List.map_congr_left; intro r _
    simp [subBlock]; omega

/-! ## Vertices and features -/

/-- Midpoints of the edges `es` of rows `v` (out of range: zero, excluded by the hypotheses). -/
def mids (K : Type) {P : Type} [Field K] [AddCommGroup P] [Module K P] (v : List P) (es : List (Int × Int)) : List P :=
  es.map fun e => mean2 K (v.getD e.1.toNat 0) (v.getD e.2.toNat 0)

omit hlen hok in
theorem midpoints_eq (v : List P) (es : List (Int × Int))
    (h : ∀ e ∈ es, 0 ≤ e.1 ∧ 0 ≤ e.2 ∧ e.1 < v.length ∧ e.2 < v.length) : midpoints K v es = some (mids K v es) := by
  unfold midpoints mids
  apply P3D.Chamfer.mapM_some
  intro e he
  obtain ⟨h1, h2, h3, h4⟩ := h e he
  have e1 : v[e.1.toNat]? = some v[e.1.toNat] := List.getElem?_eq_getElem (by omega)
  have e2 : v[e.2.toNat]? = some v[e.2.toNat] := List.getElem?_eq_getElem (by omega)
  simp [look, h1, h2, e1, e2, List.getD_eq_getElem?_getD]

omit hok in
/-- Rows parallel to the packed vertices, cut at the meshes. -/
theorem rows_getD (rows : List (List P)) (hrows : rows.map List.length = a.verts.map List.length) (m : Nat) (r : Rec R)
    (hm : (batch a)[m]? = some r) (i : Nat) (hi : i < r.vs.length) :
    rows.flatten[r.o + i]? = (rows.getD m [])[i]? ∧ (rows.getD m []).length = r.vs.length := by
  obtain ⟨h1, h2, _⟩ := recs_get 0 0 a.verts a.faces m r hm
  obtain ⟨hmv, hv⟩ := List.getElem?_eq_some_iff.mp h1
  have hmr : m < rows.length := by
    have := congrArg List.length hrows
    simp at this; omega
  have hrl : rows[m].length = r.vs.length := by
    have e := congrArg (fun l : List Nat => l[m]?) hrows
    simp only [List.getElem?_map, List.getElem?_eq_getElem hmr, List.getElem?_eq_getElem hmv, Option.map_some,
      Option.some.injEq] at e
    rw [e, hv]
  have hg : rows.getD m [] = rows[m] := by simp [List.getD_eq_getElem?_getD, hmr]
  refine ⟨?_, by rw [hg, hrl]⟩
  have := flatten_getElem?_offset rows m i hmr (by omega)
  have e : rows[m][i]? = some (rows[m][i]'(by omega)) := List.getElem?_eq_getElem _
  rw [hg, e, ← this]
  congr 1
  rw [h2, offset, List.map_take, List.map_take, hrows]
  omega

theorem mids_batch (rows : List (List P)) (hrows : rows.map List.length = a.verts.map List.length) :
    midpoints K rows.flatten (allEdges (batch a))
      = some ((List.zipWith (fun v (r : Rec R) => mids K v r.E) rows (batch a)).flatten) := by
  have hl : rows.length = (batch a).length := by
    have := congrArg List.length hrows
    rw [length_batch hlen]; simpa using this
  have hlf : rows.flatten.length = (a.verts.map List.length).sum := by rw [List.length_flatten, hrows]
  rw [midpoints_eq]
  · congr 1
    unfold mids allEdges
    rw [List.map_flatMap, List.flatMap_def]
    congr 1
    apply List.ext_getElem
    · simp [hl]
    · intro m h1 h2
      have hmb : m < (batch a).length := by simpa using h1
      have hmr : m < rows.length := by omega
      simp only [List.getElem_map, List.getElem_zipWith, List.map_map]
      apply List.map_congr_left
      intro p hp
      have hE := mem_E (batch_ok hlen hok _ (List.getElem_mem hmb)) hp
      have g1 := (rows_getD hlen rows hrows m _ (List.getElem?_eq_getElem hmb) p.1.toNat (by omega)).1
      have g2 := (rows_getD hlen rows hrows m _ (List.getElem?_eq_getElem hmb) p.2.toNat (by omega)).1
      have hg : rows.getD m [] = rows[m] := by simp [List.getD_eq_getElem?_getD, hmr]
      rw [hg] at g1 g2
      have t1 : (p.1 + ((batch a)[m].o : Int)).toNat = (batch a)[m].o + p.1.toNat := by omega
      have t2 : (p.2 + ((batch a)[m].o : Int)).toNat = (batch a)[m].o + p.2.toNat := by omega
      simp only [Function.comp, shiftE, List.getD_eq_getElem?_getD, t1, t2, g1, g2]
  · intro e he
    simp only [allEdges, List.mem_flatMap, List.mem_map] at he
    obtain ⟨r, hr, p, hp, rfl⟩ := he
    have hE := mem_E (batch_ok hlen hok r hr) hp
    have hge := recs_ge 0 0 a.verts a.faces r hr
    simp only [shiftE, hlf]
    omega

/-- The new rows of one mesh: the old rows followed by the midpoints. -/
theorem newRows_eq (rows : List (List P)) (hrows : rows.map List.length = a.verts.map List.length) :
    newRows K rows.flatten (allEdges (batch a))
        (vertsIndex (a.verts.map List.length) ((batch a).map fun r => r.E.length))
      = some ((List.zipWith (fun v (r : Rec R) => v ++ mids K v r.E) rows (batch a)).flatten) := by
  have hl : rows.length = (batch a).length := by
    have := congrArg List.length hrows
    rw [length_batch hlen]; simpa using this
  unfold newRows
  rw [mids_batch hlen hok rows hrows]
  simp only [Option.bind_eq_bind, Option.bind_some]
  unfold gatherRows vertsIndex
  rw [mapM_iff]
  have hM : (List.zipWith (fun v (r : Rec R) => mids K v r.E) rows (batch a)).map List.length
      = (batch a).map fun r => r.E.length := by
    apply List.ext_getElem
    · simp [hl]
    · intro m h1 h2; simp [mids]
  have := regroup2 rows (List.zipWith (fun v (r : Rec R) => mids K v r.E) rows (batch a)) (by simp [hl])
  rw [hM, hrows] at this
  rw [this]
  congr 2
  apply List.ext_getElem
  · simp [hl]
  · intro m h1 h2; simp

omit hok in
theorem sizes_eq (rows : List (List P)) (hrows : rows.map List.length = a.verts.map List.length) :
    List.zipWith (· + ·) (a.verts.map List.length) ((batch a).map fun r => r.E.length)
      = (List.zipWith (fun v (r : Rec R) => v ++ mids K v r.E) rows (batch a)).map List.length := by
  have hl : rows.length = (batch a).length := by
    have := congrArg List.length hrows
    rw [length_batch hlen]; simpa using this
  rw [← hrows]
  apply List.ext_getElem
  · simp
  · intro m h1 h2; simp [mids]

end Batch

/-- What subdivision of one mesh yields: vertices followed by edge midpoints, features in parallel, four faces per
face. -/
structure Piece (P Q : Type) where
  verts : List P
  faces : List Face
  feats : List Q
  deriving DecidableEq, Repr

/-- Subdivision of a mesh with vertices `v`, faces `f` and features `q`. -/
def piece (K : Type) {P Q : Type} [Field K] [AddCommGroup P] [Module K P] [AddCommGroup Q] [Module K Q]
    (v : List P) (f : List Face) (q : List Q) : Piece P Q :=
  ⟨v ++ mids K v (edgesOf v.length f), localFaces v.length f, q ++ mids K q (edgesOf v.length f)⟩

/-- Call of the generic path on a batch (packed views as in `Verif.MeshesSpec`). -/
def runHet (K : Type) {P Q : Type} [Field K] [AddCommGroup P] [Module K P] [AddCommGroup Q] [Module K Q]
    (idx : List Nat) (a : Abs P) (feats : List Q) : Option (List (List P) × List (List Face) × List Q) :=
  subdivideHet K a.verts.length a.vertsPacked a.facesPacked (Abs.meshIdx (a.faces.map List.length))
    (computeEdges idx a.verts.length a.vertsPacked.length a.facesPacked (Abs.meshIdx (a.faces.map List.length)))
    (a.verts.map List.length) (a.faces.map List.length) feats

theorem zipWith_batch {Z : Type} (a : Abs P) (hlen : a.faces.length = a.verts.length) (rows : List (List Q))
    (g : List Q → List P → List Face → Z) :
    List.zipWith (fun v (r : Rec P) => g v r.vs r.fs) rows (batch a)
      = (rows.zip (a.verts.zip a.faces)).map fun t => g t.1 t.2.1 t.2.2 := by
  have h1 := recs_verts 0 0 a.verts a.faces hlen
  have h2 := recs_faces 0 0 a.verts a.faces hlen
  have e : ((recs 0 0 a.verts a.faces).map Rec.vs).zip ((recs 0 0 a.verts a.faces).map Rec.fs)
      = (recs 0 0 a.verts a.faces).map fun r => (r.vs, r.fs) := List.zip_map'
  rw [h1, h2] at e
  rw [e]
  apply List.ext_getElem
  · simp [batch]
  · intro m i1 i2; simp [batch]

/-- **C42.** The generic path subdivides every mesh of the batch on its own: mesh `m` of the result has the old vertices
of mesh `m` followed by the midpoints of its edges, its faces are the four subfaces of its own faces in local numbering,
and the packed features are those of the meshes in order. -/
theorem het_spec (a : Abs P) (hne : a.verts ≠ []) (hlen : a.faces.length = a.verts.length) (hok : a.FacesOK)
    (feats : List (List Q)) (hfe : feats.map List.length = a.verts.map List.length) (idx : List Nat)
    (hidx : IsSortIdx (sideHashes a.vertsPacked.length a.facesPacked) idx) :
    ∃ ps : List (Piece P Q), ps = (feats.zip (a.verts.zip a.faces)).map (fun t => piece K t.2.1 t.2.2 t.1) ∧
      runHet K idx a feats.flatten = some (ps.map Piece.verts, ps.map Piece.faces, (ps.map Piece.feats).flatten) := by
  refine ⟨_, rfl, ?_⟩
  have hE : (computeEdges idx a.verts.length a.vertsPacked.length a.facesPacked
      (Abs.meshIdx (a.faces.map List.length))).edges = allEdges (batch a) := batch_edgesOf hlen hok
  have hl : feats.length = a.verts.length := by
    have := congrArg List.length hfe
    simpa using this
  unfold runHet subdivideHet
  simp only [Option.bind_eq_bind, newFaces_eq hlen hok hne idx hidx, Option.bind_some,
    batch_numEdges hlen hok idx hidx, hE]
  have hv : a.vertsPacked = a.verts.flatten := rfl
  rw [hv, newRows_eq hlen hok a.verts rfl, newRows_eq hlen hok feats hfe]
  simp only [Option.bind_some]
  rw [splitRows_flatten _ _ (sizes_eq (K := K) hlen a.verts rfl), Option.bind_some,
    splitRows_flatten _ _ (sizes_eq (K := K) hlen feats hfe), Option.bind_some]
  simp only [Option.pure_def, Option.some.injEq, Prod.mk.injEq, List.map_map]
  have t1 : (feats.zip (a.verts.zip a.faces)).map (fun t => t.2) = a.verts.zip a.faces := by
    apply List.map_snd_zip
    simp [hl, hlen]
  refine ⟨?_, ?_, ?_⟩
  · have := zipWith_batch a hlen a.verts (fun v vs fs => v ++ mids K v (edgesOf vs.length fs))
    unfold Rec.E
    rw [this]
    have e : (a.verts.zip (a.verts.zip a.faces)).map (fun t => t.1 ++ mids K t.1 (edgesOf t.2.1.length t.2.2))
        = ((feats.zip (a.verts.zip a.faces)).map (fun t => t.2)).map
          (fun t => t.1 ++ mids K t.1 (edgesOf t.1.length t.2)) := by
      rw [t1]
      apply List.ext_getElem
      · simp
      · intro m h1 h2; simp
    rw [e, List.map_map]; rfl
  · have := zipWith_batch a hlen feats (fun _ vs fs => localFaces vs.length fs)
    have e : ((batch a).map fun r => localFaces r.vs.length r.fs)
        = List.zipWith (fun _ (r : Rec P) => localFaces r.vs.length r.fs) feats (batch a) := by
      apply List.ext_getElem
      · simp [length_batch hlen, hl]
      · intro m h1 h2; simp
    rw [e, this]; rfl
  · have := zipWith_batch a hlen feats (fun q vs fs => q ++ mids K q (edgesOf vs.length fs))
    unfold Rec.E
    rw [this]
    congr 1

/-- **C42, batch = members.** Mesh `m` of a subdivided batch (vertices, faces, features) is what subdividing the batch
consisting of mesh `m` alone returns, whatever the order chosen by `torch.sort` in either call. -/
theorem het_alone (a : Abs P) (hlen : a.faces.length = a.verts.length) (hok : a.FacesOK) (feats : List (List Q))
    (hfe : feats.map List.length = a.verts.map List.length) (idx : List Nat)
    (hidx : IsSortIdx (sideHashes a.vertsPacked.length a.facesPacked) idx) (m : Nat) (hm : m < a.verts.length)
    (b : Abs P) (hb1 : b.verts = [a.verts[m]]) (hb2 : b.faces = [a.faces[m]'(by omega)]) (idx' : List Nat)
    (hidx' : IsSortIdx (sideHashes b.vertsPacked.length b.facesPacked) idx') :
    ∃ vs fs qs v f q, runHet K idx a feats.flatten = some (vs, fs, List.flatten qs) ∧
      runHet K idx' b (feats.getD m []) = some ([v], [f], q) ∧ vs[m]? = some v ∧ fs[m]? = some f ∧ qs[m]? = some q ∧
      qs.map List.length = vs.map List.length := by
  have hl : feats.length = a.verts.length := by
    have := congrArg List.length hfe
    simpa using this
  have hne : a.verts ≠ [] := by intro h; rw [h] at hm; simp at hm
  obtain ⟨ps, hps, h1⟩ := het_spec (K := K) a hne hlen hok feats hfe idx hidx
  have hmf : m < feats.length := by omega
  have hg : feats.getD m [] = feats[m] := by simp [List.getD_eq_getElem?_getD, hmf]
  have hfm : feats[m].length = a.verts[m].length := by
    have e := congrArg (fun l : List Nat => l[m]?) hfe
    simpa [hmf, hm] using e
  have hbok : b.FacesOK := by
    intro i i1 i2 f hf
    simp only [hb1, List.length_singleton] at i1
    have : i = 0 := by omega
    subst this
    simp only [hb1, hb2, List.getElem_cons_zero] at hf ⊢
    exact hok m hm (by omega) f hf
  obtain ⟨ps', hps', h2⟩ := het_spec (K := K) b (by simp [hb1]) (by simp [hb1, hb2]) hbok [feats.getD m []]
    (by rw [hg]; simp [hb1, hfm]) idx' hidx'
  rw [List.flatten_singleton] at h2
  simp only [hb1, hb2, List.zip_cons_cons, List.zip_nil_left, List.map_cons, List.map_nil] at hps'
  rw [hps'] at h2
  simp only [List.map_cons, List.map_nil, List.flatten_singleton] at h2
  have hpm : ps[m]? = some (piece K a.verts[m] (a.faces[m]'(by omega)) (feats.getD m [])) := by
    rw [hps, hg]
    have hmF : m < a.faces.length := by omega
    simp [hmf, hm, hmF]
  refine ⟨_, _, _, _, _, _, h1, h2, ?_, ?_, ?_, ?_⟩
  · rw [List.getElem?_map, hpm]; rfl
  · rw [List.getElem?_map, hpm]; rfl
  · rw [List.getElem?_map, hpm]; rfl
  · rw [hps]
    simp only [List.map_map]
    apply List.ext_getElem
    · simp
    · intro i i1 i2
      simp only [List.length_map, List.length_zip] at i1
      have e := congrArg (fun l : List Nat => l[i]?) hfe
      have e1 : i < feats.length := by omega
      have e2 : i < a.verts.length := by omega
      simp only [List.getElem?_map, List.getElem?_eq_getElem e1, List.getElem?_eq_getElem e2, Option.map_some,
        Option.some.injEq] at e
      simp [piece, mids, e]

/-! ## Geometry of one subdivided mesh -/

theorem mean2_comm (x y : P) : mean2 K x y = mean2 K y x := by unfold mean2; rw [add_comm]

/-- The vertex created for side `i` of a face is the midpoint of that side. -/
theorem look_mid (v : List P) (f : List Face) (hf : ∀ t ∈ f, t.InRange v.length) (t : Face) (ht : t ∈ f) (i : Fin 3)
    (x y : P) (hx : look v (t.side i).1 = some x) (hy : look v (t.side i).2 = some y) :
    look (v ++ mids K v (edgesOf v.length f)) ((edgesOf v.length f).idxOf (sortPair (t.side i)) + v.length : Int)
      = some (mean2 K x y) := by
  have hmem : sortPair (t.side i) ∈ edgesOf v.length f :=
    ((edgesOf_isEdgeList hf).2 _).mpr ⟨sortPair_le _, t, ht, i, sortPair_same _⟩
  have hlt := List.idxOf_lt_length_of_mem hmem
  have e : ((edgesOf v.length f).idxOf (sortPair (t.side i)) + v.length : Int)
      = ((v.length + (edgesOf v.length f).idxOf (sortPair (t.side i)) : Nat) : Int) := by push_cast; omega
  rw [e, look_nat, List.getElem?_append_right (by omega), Nat.add_sub_cancel_left, mids, List.getElem?_map,
    List.getElem?_eq_getElem hlt, List.getElem_idxOf]
  simp only [Option.map_some, Option.some.injEq]
  have hr := side_range (hf t ht) i
  rw [look_of_nonneg _ _ hr.1.1] at hx
  rw [look_of_nonneg _ _ hr.2.1] at hy
  rcases sortPair_same (t.side i) with h | h
  · rw [h]; simp [List.getD_eq_getElem?_getD, hx, hy]
  · rw [h]; simp [List.getD_eq_getElem?_getD, hx, hy, mean2_comm (K := K) y x]

theorem look_old (v w : List P) (i : Int) (x : P) (h : look v i = some x) : look (v ++ w) i = some x := by
  unfold look at *
  split at h
  · rename_i h0
    rw [if_pos h0, List.getElem?_append_left (List.getElem?_eq_some_iff.mp h).1]; exact h
  · cases h

/-- **C42, geometry.** The corner points of the faces of the subdivided mesh: a face `(x, y, z)` is replaced by
`(x, xy, zx)`, `(y, yz, xy)`, `(z, zx, yz)` and `(yz, zx, xy)` where `xy` is the midpoint of `x` and `y`. -/
theorem piece_corners (v : List P) (f : List Face) (q : List Q) (hf : ∀ t ∈ f, t.InRange v.length) :
    ∃ tri : List (P × P × P), f.map (corners v) = tri.map some ∧
      (piece K v f q).faces.map (corners (piece K v f q).verts)
        = (tri.map (fun t => (t.1, mean2 K t.1 t.2.1, mean2 K t.2.2 t.1))
          ++ tri.map (fun t => (t.2.1, mean2 K t.2.1 t.2.2, mean2 K t.1 t.2.1))
          ++ tri.map (fun t => (t.2.2, mean2 K t.2.2 t.1, mean2 K t.2.1 t.2.2))
          ++ tri.map (fun t => (mean2 K t.2.1 t.2.2, mean2 K t.2.2 t.1, mean2 K t.1 t.2.1))).map some := by
  have hget : ∀ t ∈ f, ∃ x y z, look v t.1 = some x ∧ look v t.2.1 = some y ∧ look v t.2.2 = some z := by
    intro t ht
    obtain ⟨⟨a0, a1⟩, ⟨b0, b1⟩, ⟨c0, c1⟩⟩ := hf t ht
    refine ⟨v[t.1.toNat], v[t.2.1.toNat], v[t.2.2.toNat], ?_, ?_, ?_⟩
    · rw [look_of_nonneg _ _ a0]; exact List.getElem?_eq_getElem (by omega)
    · rw [look_of_nonneg _ _ b0]; exact List.getElem?_eq_getElem (by omega)
    · rw [look_of_nonneg _ _ c0]; exact List.getElem?_eq_getElem (by omega)
  refine ⟨f.map fun t => ((look v t.1).getD 0, (look v t.2.1).getD 0, (look v t.2.2).getD 0), ?_, ?_⟩
  · rw [List.map_map]
    apply List.map_congr_left
    intro t ht
    obtain ⟨x, y, z, hx, hy, hz⟩ := hget t ht
    simp [corners, hx, hy, hz]
  · unfold piece localFaces
    simp only [List.map_append, List.map_map]
    have key : ∀ t ∈ f, ∀ j : Fin 4, corners (v ++ mids K v (edgesOf v.length f)) (sub v.length (edgesOf v.length f) j t)
        = match j with
          | 0 => some ((look v t.1).getD 0, mean2 K ((look v t.1).getD 0) ((look v t.2.1).getD 0),
              mean2 K ((look v t.2.2).getD 0) ((look v t.1).getD 0))
          | 1 => some ((look v t.2.1).getD 0, mean2 K ((look v t.2.1).getD 0) ((look v t.2.2).getD 0),
              mean2 K ((look v t.1).getD 0) ((look v t.2.1).getD 0))
          | 2 => some ((look v t.2.2).getD 0, mean2 K ((look v t.2.2).getD 0) ((look v t.1).getD 0),
              mean2 K ((look v t.2.1).getD 0) ((look v t.2.2).getD 0))
          | 3 => some (mean2 K ((look v t.2.1).getD 0) ((look v t.2.2).getD 0),
              mean2 K ((look v t.2.2).getD 0) ((look v t.1).getD 0),
              mean2 K ((look v t.1).getD 0) ((look v t.2.1).getD 0)) := by
      intro t ht j
      obtain ⟨x, y, z, hx, hy, hz⟩ := hget t ht
      have m0 := look_mid (K := K) v f hf t ht 0 y z hy hz
      have m1 := look_mid (K := K) v f hf t ht 1 z x hz hx
      have m2 := look_mid (K := K) v f hf t ht 2 x y hx hy
      have o0 := look_old v (mids K v (edgesOf v.length f)) _ _ hx
      have o1 := look_old v (mids K v (edgesOf v.length f)) _ _ hy
      have o2 := look_old v (mids K v (edgesOf v.length f)) _ _ hz
      simp only [hx, hy, hz, Option.getD_some]
      fin_cases j <;> simp [corners, sub, m0, m1, m2, o0, o1, o2]
    congr 1
    · congr 1
      · congr 1
        · apply List.map_congr_left; intro t ht; exact key t ht 0
        · apply List.map_congr_left; intro t ht; exact key t ht 1
      · apply List.map_congr_left; intro t ht; exact key t ht 2
    · apply List.map_congr_left; intro t ht; exact key t ht 3

/-- The vertices (and likewise the features) of the subdivided mesh: the old ones, then one midpoint for each edge. -/
theorem piece_rows (v : List P) (f : List Face) (q : List Q) (hf : ∀ t ∈ f, t.InRange v.length)
    (hq : q.length = v.length) : ∃ es, IsEdgeList f es ∧
      ∃ mv mq, (piece K v f q).verts = v ++ mv ∧ (piece K v f q).feats = q ++ mq ∧
        mv.map some = es.map (fun e => do return mean2 K (← look v e.1) (← look v e.2)) ∧
        mq.map some = es.map (fun e => do return mean2 K (← look q e.1) (← look q e.2)) := by
  refine ⟨edgesOf v.length f, edgesOf_isEdgeList hf, _, _, rfl, rfl, ?_, ?_⟩
  · symm
    rw [← mapM_iff]
    apply midpoints_eq
    intro e he
    have := mem_E (r := ⟨v, f, 0, 0⟩) hf he
    dsimp only at this
    omega
  · symm
    rw [← mapM_iff]
    apply midpoints_eq
    intro e he
    have := mem_E (r := ⟨v, f, 0, 0⟩) hf he
    dsimp only at this
    omega

/-- Twice the area vector of a triangle: its direction is the orientation, its length twice the area. -/
def areaVec (t : V3 K × V3 K × V3 K) : V3 K := V3.cross (t.2.1 - t.1) (t.2.2 - t.1)

/-- **C42, orientation.** Each of the four triangles of `piece_corners` has a quarter of the area vector of the
original one: same plane, same orientation, a quarter of the area. -/
theorem subface_areaVec (h2 : (2 : K) ≠ 0) (x y z : V3 K) :
    areaVec (x, mean2 K x y, mean2 K z x) = (4 : K)⁻¹ • areaVec (x, y, z) ∧
    areaVec (y, mean2 K y z, mean2 K x y) = (4 : K)⁻¹ • areaVec (x, y, z) ∧
    areaVec (z, mean2 K z x, mean2 K y z) = (4 : K)⁻¹ • areaVec (x, y, z) ∧
    areaVec (mean2 K y z, mean2 K z x, mean2 K x y) = (4 : K)⁻¹ • areaVec (x, y, z) := by
  have h4 : (4 : K) ≠ 0 := by
    have : (4 : K) = 2 * 2 := by ring
    rw [this]; exact mul_ne_zero h2 h2
  refine ⟨?_, ?_, ?_, ?_⟩ <;>
  · apply V3.ext <;>
    simp only [areaVec, mean2, V3.cross, V3.sub_x, V3.sub_y, V3.sub_z, V3.smul_x, V3.smul_y, V3.smul_z, V3.add_x,
      V3.add_y, V3.add_z] <;> field_simp <;> ring

/-! ## Precomputed topology -/

/-- The faces precomputed by the initializer from its first mesh (`subdivide_meshes.py:44-52`), a batch of one mesh. -/
def precompute (idx : List Nat) (V : Nat) (f : List Face) : List Face :=
  subdivideFaces V f (computeEdges idx 1 V f (List.replicate f.length 0)).faceToEdge

/-- **C42, precomputed = generic.** For a batch whose meshes all have the faces and the number of vertices of the
template, both paths return the same meshes; the features of the precomputed path, concatenated, are those of the
generic path. -/
theorem hom_eq_het (a : Abs P) (hne : a.verts ≠ []) (V : Nat) (f : List Face)
    (hV : ∀ v ∈ a.verts, v.length = V) (hF : a.faces = List.replicate a.verts.length f)
    (hf : ∀ t ∈ f, t.InRange V) (feats : List (List Q)) (hfe : feats.map List.length = a.verts.map List.length)
    (idx idx0 : List Nat) (hidx : IsSortIdx (sideHashes a.vertsPacked.length a.facesPacked) idx) :
    ∃ vs fs qs, subdivideHom K (precompute idx0 V f) a.verts (edgesOf V f) feats = some (vs, fs, qs) ∧
      runHet K idx a feats.flatten = some (vs, fs, qs.flatten) := by
  have hlen : a.faces.length = a.verts.length := by rw [hF]; simp
  have hok : a.FacesOK := by
    intro m h1 h2 t ht
    simp only [hF, List.getElem_replicate] at ht
    rw [hV _ (List.getElem_mem h1)]
    exact hf t ht
  have hl : feats.length = a.verts.length := by
    have := congrArg List.length hfe
    simpa using this
  obtain ⟨ps, hps, h1⟩ := het_spec (K := K) a hne hlen hok feats hfe idx hidx
  have hfV : ∀ q ∈ feats, q.length = V := by
    intro q hq
    have : q.length ∈ feats.map List.length := List.mem_map_of_mem hq
    rw [hfe] at this
    obtain ⟨v, hv, e⟩ := List.mem_map.mp this
    rw [← e, hV v hv]
  have hpre : precompute idx0 V f = localFaces V f := by
    unfold precompute
    rw [faceToEdge_eq hf, subdivideFaces_map]; rfl
  have hrow : ∀ {S : Type} [AddCommGroup S] [Module K S] (v : List S), v.length = V →
      homRows K v (edgesOf V f) = some (v ++ mids K v (edgesOf V f)) := by
    intro S _ _ v hv
    unfold homRows
    rw [midpoints_eq]
    · rfl
    · intro e he
      have := mem_E (r := ⟨v, f, 0, 0⟩) (by intro t ht; dsimp only; rw [hv]; exact hf t ht) (by
        simp only [Rec.E, hv]; exact he)
      dsimp only at this
      omega
  refine ⟨a.verts.map (fun v => v ++ mids K v (edgesOf V f)), List.replicate a.verts.length (localFaces V f),
    feats.map (fun v => v ++ mids K v (edgesOf V f)), ?_, ?_⟩
  · unfold subdivideHom
    rw [P3D.Chamfer.mapM_some a.verts _ _ (fun v hv => hrow v (hV v hv)),
      P3D.Chamfer.mapM_some feats _ _ (fun v hv => hrow v (hfV v hv)), hpre]
    rfl
  · rw [h1]
    simp only [Option.some.injEq, Prod.mk.injEq]
    have hel : ∀ (m : Nat) (h : m < ps.length), ∃ (h1 : m < a.verts.length) (h2 : m < feats.length),
        ps[m] = ⟨a.verts[m] ++ mids K a.verts[m] (edgesOf V f), localFaces V f,
          feats[m] ++ mids K feats[m] (edgesOf V f)⟩ := by
      intro m h
      have hm : m < a.verts.length := by
        rw [hps] at h; simp at h; omega
      refine ⟨hm, by omega, ?_⟩
      simp only [hps, List.getElem_map, List.getElem_zip, piece, hV _ (List.getElem_mem hm), hF, List.getElem_replicate]
    have hpl : ps.length = a.verts.length := by rw [hps]; simp [hl, hlen]
    refine ⟨?_, ?_, ?_⟩
    · apply List.ext_getElem
      · simp [hpl]
      · intro m i1 i2
        obtain ⟨_, _, e⟩ := hel m (by simpa using i1)
        simp [e]
    · apply List.ext_getElem
      · simp [hpl]
      · intro m i1 i2
        obtain ⟨_, _, e⟩ := hel m (by simpa using i1)
        simp [e]
    · congr 1
      apply List.ext_getElem
      · simp [hpl, hl]
      · intro m i1 i2
        obtain ⟨_, _, e⟩ := hel m (by simpa using i1)
        simp [e]

set_option synthInstance.maxSize 1000 in
/-- Two meshes of different topology: a triangle and two triangles sharing an edge. -/
example : runHet ℚ (stableSortIdx (sideHashes 7 [(0, 1, 2), (3, 4, 5), (5, 4, 6)]))
    (Abs.ofLists (0 : ℚ) [[0, 2, 4], [0, 2, 8, 20]] [[(0, 1, 2)], [(0, 1, 2), (2, 1, 3)]]) ([1, 3, 5, 1, 1, 1, 3] : List ℚ)
    = some ([[0, 2, 4, 1, 2, 3], [0, 2, 8, 20, 1, 4, 5, 11, 14]],
        [[(0, 3, 4), (1, 5, 3), (2, 4, 5), (5, 4, 3)],
          [(0, 4, 5), (2, 6, 8), (1, 6, 4), (1, 7, 6), (2, 5, 6), (3, 8, 7), (6, 5, 4), (7, 8, 6)]],
        [1, 3, 5, 2, 3, 4, 1, 1, 1, 3, 1, 1, 1, 2, 2]) := by decide +kernel

set_option synthInstance.maxSize 1000 in
/-- The precomputed path on two meshes with the same faces. -/
example : subdivideHom ℚ (precompute [2, 1, 0] 3 [(0, 1, 2)]) [([0, 2, 4] : List ℚ), [0, 20, 40]]
    (edgesOf 3 [(0, 1, 2)]) [([1, 1, 3] : List ℚ), [5, 5, 5]]
    = some ([[0, 2, 4, 1, 2, 3], [0, 20, 40, 10, 20, 30]],
        [[(0, 3, 4), (1, 5, 3), (2, 4, 5), (5, 4, 3)], [(0, 3, 4), (1, 5, 3), (2, 4, 5), (5, 4, 3)]],
        [[1, 1, 3, 1, 2, 2], [5, 5, 5, 5, 5, 5]]) := by decide +kernel

end P3D.Subdivide
