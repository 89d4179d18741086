/-
C07, C09, C10, C11: indexing, splitting, extending, joining, submeshes, and the all-empty batch.
-/
import Verif.EdgesProps

namespace P3D.Meshes

open P3D.StructUtils

variable {P K A E L : Type}

/-! ## Helpers -/

theorem mapM_ok_map {X Y : Type} (f : X → Except Err Y) (g : X → Y) (l : List X)
    (h : ∀ x ∈ l, f x = .ok (g x)) : l.mapM f = .ok (l.map g) := by
  induction l with
  | nil => rfl
  | cons x l ih =>
    rw [List.mapM_cons, h x (by simp), ih (fun y hy => h y (by simp [hy]))]
    rfl

theorem mapM_ok_exists {X Y : Type} (f : X → Except Err Y) (l : List X)
    (h : ∀ x ∈ l, ∃ y, f x = .ok y) : ∃ ys, l.mapM f = .ok ys ∧ List.Forall₂ (fun x y => f x = .ok y) l ys := by
  induction l with
  | nil => exact ⟨[], rfl, .nil⟩
  | cons x l ih =>
    obtain ⟨y, hy⟩ := h x (by simp)
    obtain ⟨ys, h1, h2⟩ := ih (fun y hy => h y (by simp [hy]))
    refine ⟨y :: ys, ?_, .cons hy h2⟩
    rw [List.mapM_cons, hy, h1]
    rfl

theorem ofList_vertsList (v : List (List P)) (f : List (List Face)) :
    (ofList v f : State P A E L).vertsList = some v := by
  simp only [ofList, resetCounts]; split <;> rfl

theorem ofList_facesList (v : List (List P)) (f : List (List Face)) :
    (ofList v f : State P A E L).facesList = some (f.map (fun g => g.filter Face.real)) := by
  simp only [ofList, resetCounts]; split <;> rfl

theorem ofList_N (v : List (List P)) (f : List (List Face)) :
    (ofList v f : State P A E L).N = v.length := by
  simp only [ofList, resetCounts]; split <;> rfl

theorem filter_real {fs : List (List Face)} (h : ∀ f ∈ fs, ∀ t ∈ f, Face.real t = true) :
    fs.map (fun g => g.filter Face.real) = fs := by
  conv_rhs => rw [← List.map_id fs]
  apply List.map_congr_left
  intro g hg
  simpa using h g hg

/-- What it means that an object holds the given meshes, whatever else it has cached: its list
views are those, and it is a full model of them if some mesh has a vertex and a face. -/
structure Holds (ops : Ops P K A E L) (v : List (List P)) (f : List (List Face))
    (m : State P A E L) : Prop where
  verts : ∃ m', getVertsList m = .ok (v, m')
  faces : ∃ m', getFacesList m = .ok (f, m')
  len : m.N = v.length
  full : (∃ i, ∃ (h : i < v.length) (h' : i < f.length), v[i] ≠ [] ∧ f[i] ≠ []) →
    Inv ops (Abs.ofLists ops.zero v f) m

theorem holds_ofList (ops : Ops P K A E L) (v : List (List P)) (f : List (List Face))
    (hlen : f.length = v.length) (hreal : ∀ g ∈ f, ∀ t ∈ g, Face.real t = true) :
    Holds ops v f (ofList v f) := by
  refine ⟨⟨ofList v f, ?_⟩, ⟨ofList v f, ?_⟩, ofList_N v f, ?_⟩
  · simp [getVertsList, ofList_vertsList]
  · simp [getFacesList, ofList_facesList, filter_real hreal]
  · rintro ⟨i, h, h', h1, h2⟩
    have := inv_ofList (L := L) (E := E) (A := A) ops v f hlen ⟨i, h, h1, by
      rwa [List.filter_eq_self.mpr (fun t ht => hreal _ (List.getElem_mem h') t ht)]⟩
    rwa [filter_real hreal] at this

/-! ## C07: indexing -/

/-- Specification of an index: `ps` are the positions it selects in a list of length `n`. -/
def Index.Selects (n : Nat) (ps : List Nat) : Index → Prop
  | .int i => (-(n : Int) ≤ i ∧ i < n) ∧ ps = [(i % n).toNat]
  | .ints l => (∀ i ∈ l, -(n : Int) ≤ i ∧ i < n) ∧ ps = l.map (fun i : Int => (i % (n : Int)).toNat)
  | .mask m => (∀ k, n ≤ k → m.getD k false = false) ∧
      ps = (List.range n).filter (fun k => m.getD k false)
  | .slice a b => ps = (List.range n).filter (fun k => decide (a ≤ k ∧ k < b))

theorem pyIndex_eq (n : Nat) (i : Int) :
    pyIndex n i = if -(n : Int) ≤ i ∧ i < n then some (i % n).toNat else none := by
  unfold pyIndex
  by_cases h : 0 ≤ i
  · by_cases h2 : i < n
    · rw [if_pos h, if_pos h2, if_pos ⟨by omega, h2⟩, Int.emod_eq_of_lt h h2]
    · rw [if_pos h, if_neg h2, if_neg (by omega)]
  · by_cases h2 : 0 ≤ i + n
    · rw [if_neg h, if_pos h2, if_pos ⟨by omega, by omega⟩]
      rw [← Int.add_emod_right, Int.emod_eq_of_lt h2 (by omega)]
    · rw [if_neg h, if_neg h2, if_neg (by omega)]

theorem emod_toNat_lt {n : Nat} {i : Int} (h : -(n : Int) ≤ i ∧ i < n) : (i % n).toNat < n := by
  have : (0 : Int) < n := by omega
  have h1 := Int.emod_nonneg i (by omega : (n : Int) ≠ 0)
  have h2 := Int.emod_lt_of_pos i this
  omega

theorem pick_ok {X : Type} (l : List (List X)) (ix : List Int)
    (h : ∀ i ∈ ix, -(l.length : Int) ≤ i ∧ i < l.length) :
    pick l ix = .ok ((ix.map (fun i : Int => (i % (l.length : Int)).toNat)).map (fun k => l.getD k [])) := by
  unfold pick
  rw [List.map_map]
  apply mapM_ok_map
  intro i hi
  have hlt := emod_toNat_lt (h i hi)
  rw [pyIndex_eq, if_pos (h i hi)]
  simp [hlt]

theorem pick_err {X : Type} (l : List X) (ix : List Int)
    (h : ¬ ∀ i ∈ ix, -(l.length : Int) ≤ i ∧ i < l.length) :
    pick l ix = .error .indexError := by
  unfold pick
  induction ix with
  | nil => simp at h
  | cons i ix ih =>
    rw [List.mapM_cons, pyIndex_eq]
    by_cases hi : -(l.length : Int) ≤ i ∧ i < l.length
    · have h' : ¬ ∀ i ∈ ix, -(l.length : Int) ≤ i ∧ i < l.length := by
        intro hc
        apply h
        intro j hj
        rcases List.mem_cons.mp hj with rfl | hj
        · exact hi
        · exact hc j hj
      have hlt := emod_toNat_lt hi
      rw [if_pos hi, ih h']
      simp [hlt, bind, Except.bind]
    · rw [if_neg hi]
      simp [bind, Except.bind]

theorem eq_of_strictly_sorted {l r : List Nat} (hl : l.Pairwise (· < ·)) (hr : r.Pairwise (· < ·))
    (h : ∀ x, x ∈ l ↔ x ∈ r) : l = r := by
  apply List.Perm.eq_of_pairwise (le := (· < ·)) (fun a b _ _ hab hba => by omega) hl hr
  rw [List.perm_ext_iff_of_nodup (hl.imp (fun h => ne_of_lt h)) (hr.imp (fun h => ne_of_lt h))]
  exact h

theorem slice_range (n a b : Nat) :
    ((List.range n).take b).drop a = (List.range n).filter (fun k => decide (a ≤ k ∧ k < b)) := by
  apply eq_of_strictly_sorted
  · exact (List.pairwise_lt_range.sublist (List.take_sublist _ _)).sublist (List.drop_sublist _ _)
  · exact List.pairwise_lt_range.sublist List.filter_sublist
  · intro x
    rw [List.take_range, List.range_eq_range', List.drop_range']
    simp only [List.mem_range', List.mem_filter, List.mem_range, decide_eq_true_eq]
    constructor
    · rintro ⟨i, hi, rfl⟩; omega
    · rintro ⟨h1, h2, h3⟩; exact ⟨x - a, by omega, by omega⟩

theorem nonzero_eq (m : List Bool) :
    nonzero m = ((List.range m.length).filter (fun k => m.getD k false)).map Int.ofNat := by
  have : (m.zipIdx.filter (fun p => p.1)).map (fun p => p.2)
      = (List.range m.length).filter (fun k => m.getD k false) := by
    apply eq_of_strictly_sorted
    · rw [List.pairwise_map]
      apply List.Pairwise.sublist List.filter_sublist
      have : (m.zipIdx.map Prod.snd).Pairwise (· < ·) := by
        rw [List.zipIdx_map_snd]
        simpa [List.range_eq_range'] using List.pairwise_lt_range
      rwa [List.pairwise_map] at this
    · exact List.pairwise_lt_range.sublist List.filter_sublist
    · intro x
      simp only [List.mem_map, List.mem_filter, List.mem_range]
      constructor
      · rintro ⟨⟨b, x⟩, ⟨h1, rfl⟩, rfl⟩
        have h2 := List.mem_zipIdx' h1
        exact ⟨h2.1, by simp [h2.1, ← h2.2]⟩
      · rintro ⟨h1, h2⟩
        refine ⟨(true, x), ⟨?_, rfl⟩, rfl⟩
        rw [List.mk_mem_zipIdx_iff_getElem?]
        rw [List.getD_eq_getElem?_getD, List.getElem?_eq_getElem h1] at h2
        rw [List.getElem?_eq_getElem h1]
        simpa using h2
  unfold nonzero
  rw [← this, List.map_map]; rfl

/-- Positions selected by an index are in range. -/
theorem selects_lt {n : Nat} {ps : List Nat} {ix : Index} (h : ix.Selects n ps) : ∀ k ∈ ps, k < n := by
  intro k hk
  cases ix with
  | int i => obtain ⟨h1, rfl⟩ := h; simp at hk; subst hk; exact emod_toNat_lt h1
  | ints l =>
    obtain ⟨h1, rfl⟩ := h
    obtain ⟨i, hi, rfl⟩ := List.mem_map.mp hk
    exact emod_toNat_lt (h1 i hi)
  | mask m => obtain ⟨h1, rfl⟩ := h; simp at hk; exact hk.1
  | slice a b => have : ps = _ := h; subst this; simp at hk; exact hk.1

theorem select_ok {X : Type} (l : List (List X)) (ix : Index) (ps : List Nat)
    (h : ix.Selects l.length ps) : ix.select l = .ok (ps.map (fun k => l.getD k [])) := by
  cases ix with
  | int i =>
    obtain ⟨h1, rfl⟩ := h
    exact pick_ok l [i] (by simpa using h1)
  | ints is =>
    obtain ⟨h1, rfl⟩ := h
    exact pick_ok l is h1
  | mask m =>
    obtain ⟨h1, rfl⟩ := h
    have hm : (List.range m.length).filter (fun k => m.getD k false)
        = (List.range l.length).filter (fun k => m.getD k false) := by
      apply eq_of_strictly_sorted
      · exact List.pairwise_lt_range.sublist List.filter_sublist
      · exact List.pairwise_lt_range.sublist List.filter_sublist
      · intro x
        simp only [List.mem_filter, List.mem_range]
        constructor
        · rintro ⟨_, hx⟩
          refine ⟨?_, hx⟩
          by_contra hc
          rw [h1 x (by omega)] at hx; simp at hx
        · rintro ⟨_, hx⟩
          refine ⟨?_, hx⟩
          by_contra hc
          rw [List.getD_eq_getElem?_getD, List.getElem?_eq_none (by omega)] at hx; simp at hx
    show pick l (nonzero m) = _
    rw [nonzero_eq, hm, pick_ok]
    · congr 1
      simp only [List.map_map]
      apply List.map_congr_left
      intro k hk
      have : k < l.length := by simp at hk; exact hk.1
      simp only [Function.comp, Int.ofNat_eq_natCast]
      rw [Int.emod_eq_of_lt (by omega) (by omega)]; simp
    · intro i hi
      simp only [List.mem_map, List.mem_filter, List.mem_range] at hi
      obtain ⟨k, hk, rfl⟩ := hi
      simp only [Int.ofNat_eq_natCast]
      omega
  | slice a b =>
    have hps : ps = _ := h
    subst hps
    show Except.ok _ = _
    congr 1
    rw [← slice_range, List.map_drop, List.map_take]
    congr 2
    apply List.ext_getElem
    · simp
    · intro k h1 h2; simp [h1]

/-- **C07 (indexing).** For every valid index (int, list of ints, boolean mask, slice; negative ints
count from the end) `meshes[index]` holds exactly the meshes at the selected positions, in that
order, and `meshes` itself is unchanged. -/
theorem getItem_spec {ops : Ops P K A E L} {a : Abs P} {s : State P A E L} (h : Inv ops a s)
    (ix : Index) (ps : List Nat) (hix : ix.Selects a.verts.length ps) :
    ∃ m s', getItem ix s = .ok (m, s') ∧ Inv ops a s' ∧
      Holds ops (ps.map (fun k => a.verts.getD k [])) (ps.map (fun k => a.faces.getD k [])) m := by
  obtain ⟨s1, e1, i1, -⟩ := inv_getVertsList h
  obtain ⟨s2, e2, i2, -⟩ := inv_getFacesList i1
  have hf := select_ok a.faces ix ps (by rw [h.wf.lenF]; exact hix)
  refine ⟨_, s2, ?_, i2, holds_ofList ops _ _ (by simp) ?_⟩
  · simp only [getItem, e1, e2, bind, Except.bind, select_ok a.verts ix ps hix, hf]
  · intro g hg t ht
    obtain ⟨k, hk, rfl⟩ := List.mem_map.mp hg
    have hlt := selects_lt hix k hk
    rw [← h.wf.lenF] at hlt
    rw [List.getD_eq_getElem?_getD, List.getElem?_eq_getElem hlt] at ht
    exact h.wf.facesReal _ (List.getElem_mem hlt) t ht

/-- An index with an out-of-range position raises `IndexError`. -/
theorem getItem_err {ops : Ops P K A E L} {a : Abs P} {s : State P A E L} (h : Inv ops a s)
    (l : List Int) (hl : ¬ ∀ i ∈ l, -(a.verts.length : Int) ≤ i ∧ i < a.verts.length) :
    getItem (.ints l) s = .error .indexError := by
  obtain ⟨s1, e1, i1, -⟩ := inv_getVertsList h
  obtain ⟨s2, e2, i2, -⟩ := inv_getFacesList i1
  simp only [getItem, e1, e2, bind, Except.bind, Index.select, pick_err a.verts l hl]

/-! ## C07: split, extend, join -/

/-- Cutting a list into consecutive pieces. -/
def pieces {X : Type} : List Nat → List X → List (List X)
  | [], _ => []
  | n :: ns, l => l.take n :: pieces ns (l.drop n)

theorem pieces_flatten {X : Type} (sizes : List Nat) (l : List X) (h : sizes.sum = l.length) :
    (pieces sizes l).flatten = l := by
  induction sizes generalizing l with
  | nil =>
    have : l = [] := List.eq_nil_of_length_eq_zero (by simpa using h.symm)
    subst this; rfl
  | cons n ns ih =>
    simp only [pieces, List.flatten_cons]
    rw [ih _ (by rw [List.length_drop, ← h, List.sum_cons]; omega), List.take_append_drop]

theorem slice_eq {X : Type} (l : List X) (c n : Nat) :
    (l.take (c + n)).drop c = (l.drop c).take n := by
  rw [List.drop_take]; congr 1; omega

/-- **C07 (split).** `split(sizes)` returns objects holding the consecutive pieces. -/
theorem split_spec {ops : Ops P K A E L} {a : Abs P} {s : State P A E L} (h : Inv ops a s)
    (sizes : List Nat) :
    ∃ ms s', split sizes s = .ok (ms, s') ∧ Inv ops a s' ∧
      List.Forall₂ (fun (p : List (List P) × List (List Face)) m => Holds ops p.1 p.2 m)
        ((pieces sizes a.verts).zip (pieces sizes a.faces)) ms := by
  have gen : ∀ (sizes : List Nat) (c : Nat) (s : State P A E L), Inv ops a s →
      ∃ ms s', split.go c sizes s = .ok (ms, s') ∧ Inv ops a s' ∧
      List.Forall₂ (fun (p : List (List P) × List (List Face)) m => Holds ops p.1 p.2 m)
        ((pieces sizes (a.verts.drop c)).zip (pieces sizes (a.faces.drop c))) ms := by
    intro sizes
    induction sizes with
    | nil => intro c s h; exact ⟨[], s, rfl, h, .nil⟩
    | cons n ns ih =>
      intro c s h
      obtain ⟨s1, e1, i1, -⟩ := inv_getVertsList h
      obtain ⟨s2, e2, i2, -⟩ := inv_getFacesList i1
      obtain ⟨ms, s3, e3, i3, f3⟩ := ih (c + n) s2 i2
      refine ⟨ofList ((a.verts.drop c).take n) ((a.faces.drop c).take n) :: ms, s3, ?_, i3, ?_⟩
      · simp only [split.go, getItem, e1, e2, bind, Except.bind, Index.select, e3, slice_eq]
      · simp only [pieces, List.zip_cons_cons, List.drop_drop]
        refine .cons ?_ f3
        apply holds_ofList
        · simp [h.wf.lenF]
        · intro g hg t ht
          exact h.wf.facesReal g (List.mem_of_mem_drop (List.mem_of_mem_take hg)) t ht
  simpa [split] using gen sizes 0 s h

/-- **C07 (join).** `join_meshes_as_batch` holds the concatenation of the batches. -/
theorem joinBatch_spec (ops : Ops P K A E L) (xs : List (List (List P) × List (List Face)))
    (ms : List (State P A E L))
    (hx : List.Forall₂ (fun p m => Holds ops p.1 p.2 m) xs ms)
    (hlen : ∀ p ∈ xs, p.2.length = p.1.length)
    (hreal : ∀ p ∈ xs, ∀ f ∈ p.2, ∀ t ∈ f, Face.real t = true) :
    ∃ m, joinBatch ms = .ok m ∧ Holds ops (xs.map Prod.fst).flatten (xs.map Prod.snd).flatten m := by
  have h1 : ms.mapM (fun m => (getVertsList m).map Prod.fst) = .ok (xs.map Prod.fst) := by
    clear hlen hreal
    induction hx with
    | nil => rfl
    | cons hp _ ih =>
      obtain ⟨m', e⟩ := hp.verts
      rw [List.mapM_cons, ih, e]; rfl
  have h2 : ms.mapM (fun m => (getFacesList m).map Prod.fst) = .ok (xs.map Prod.snd) := by
    clear hlen hreal h1
    induction hx with
    | nil => rfl
    | cons hp _ ih =>
      obtain ⟨m', e⟩ := hp.faces
      rw [List.mapM_cons, ih, e]; rfl
  refine ⟨_, ?_, holds_ofList ops _ _ ?_ ?_⟩
  · simp only [joinBatch, h1, h2, bind, Except.bind]
  · clear h1 h2 hx hreal
    induction xs with
    | nil => rfl
    | cons p xs ih =>
      simp only [List.map_cons, List.flatten_cons, List.length_append,
        hlen p (by simp), ih (fun q hq => hlen q (by simp [hq]))]
  · intro g hg t ht
    obtain ⟨l, hl, hgl⟩ := List.mem_flatten.mp hg
    obtain ⟨p, hp, rfl⟩ := List.mem_map.mp hl
    exact hreal p hp g hgl t ht

theorem pieces_length {X Y : Type} (sizes : List Nat) (l : List X) (r : List Y)
    (h : l.length = r.length) :
    (pieces sizes l).map List.length = (pieces sizes r).map List.length := by
  induction sizes generalizing l r with
  | nil => rfl
  | cons n ns ih => simp [pieces, h, ih (l.drop n) (r.drop n) (by simp [h])]

theorem mem_pieces {X : Type} {sizes : List Nat} {l p : List X} (hp : p ∈ pieces sizes l) {x : X}
    (hx : x ∈ p) : x ∈ l := by
  induction sizes generalizing l with
  | nil => simp [pieces] at hp
  | cons n ns ih =>
    simp only [pieces, List.mem_cons] at hp
    rcases hp with rfl | hp
    · exact List.mem_of_mem_take hx
    · exact List.mem_of_mem_drop (ih hp)

theorem length_pieces {X : Type} (sizes : List Nat) (l : List X) :
    (pieces sizes l).length = sizes.length := by
  induction sizes generalizing l with
  | nil => rfl
  | cons n ns ih => simp [pieces, ih]

/-- **C07 (round trip).** Splitting a batch into pieces and joining the pieces gives the batch back,
for all sizes adding up to the batch size. -/
theorem split_join {ops : Ops P K A E L} {a : Abs P} {s : State P A E L} (h : Inv ops a s)
    (sizes : List Nat) (hsum : sizes.sum = a.verts.length) :
    ∃ ms s' m, split sizes s = .ok (ms, s') ∧ joinBatch ms = .ok m ∧
      Holds ops a.verts a.faces m := by
  obtain ⟨ms, s', e, -, hf⟩ := split_spec h sizes
  have hl : (pieces sizes a.verts).length = (pieces sizes a.faces).length := by
    simp [length_pieces]
  have hz1 : ((pieces sizes a.verts).zip (pieces sizes a.faces)).map Prod.fst
      = pieces sizes a.verts := List.map_fst_zip (by omega)
  have hz2 : ((pieces sizes a.verts).zip (pieces sizes a.faces)).map Prod.snd
      = pieces sizes a.faces := List.map_snd_zip (by omega)
  obtain ⟨m, em, hm⟩ := joinBatch_spec ops _ ms hf (by
    intro p hp
    have hpl := pieces_length sizes a.verts a.faces h.wf.lenF.symm
    obtain ⟨k, hk, rfl⟩ := List.getElem_of_mem hp
    have hk1 : k < (pieces sizes a.verts).length := by simp at hk; omega
    have hk2 : k < (pieces sizes a.faces).length := by omega
    have := congrArg (fun l => l[k]?) hpl
    simp [hk1, hk2] at this
    simp [this])
    (by
      intro p hp f hf t ht
      exact h.wf.facesReal f (mem_pieces (List.of_mem_zip hp).2 hf) t ht)
  rw [hz1, hz2, pieces_flatten _ _ hsum, pieces_flatten _ _ (by rw [h.wf.lenF]; exact hsum)] at hm
  exact ⟨ms, s', m, e, em, hm⟩

/-- **C07 (extend).** `extend(n)` with `n ≥ 1` repeats each mesh `n` times in order; `n = 0` is
rejected. -/
theorem extend_spec {ops : Ops P K A E L} {a : Abs P} {s : State P A E L} (h : Inv ops a s) (n : Nat) :
    (n = 0 → extend n s = .error .valueError) ∧
    (0 < n → ∃ m s', extend n s = .ok (m, s') ∧ Inv ops a s' ∧
      Holds ops (a.verts.flatMap (fun v => List.replicate n v))
        (a.faces.flatMap (fun f => List.replicate n f)) m) := by
  constructor
  · intro h0; simp [extend, h0]
  · intro hn
    obtain ⟨s1, e1, i1, -⟩ := inv_getVertsList h
    obtain ⟨s2, e2, i2, -⟩ := inv_getFacesList i1
    have hz1 : (a.verts.zip a.faces).flatMap (fun p => List.replicate n p.1)
        = a.verts.flatMap (fun v => List.replicate n v) := by
      have : a.verts.flatMap (fun v => List.replicate n v)
          = ((a.verts.zip a.faces).map Prod.fst).flatMap (fun v => List.replicate n v) := by
        rw [List.map_fst_zip (by rw [h.wf.lenF])]
      rw [this, List.flatMap_map]
    have hz2 : (a.verts.zip a.faces).flatMap (fun p => List.replicate n p.2)
        = a.faces.flatMap (fun v => List.replicate n v) := by
      have : a.faces.flatMap (fun v => List.replicate n v)
          = ((a.verts.zip a.faces).map Prod.snd).flatMap (fun v => List.replicate n v) := by
        rw [List.map_snd_zip (by rw [h.wf.lenF])]
      rw [this, List.flatMap_map]
    refine ⟨_, s2, ?_, i2, holds_ofList ops _ _ ?_ ?_⟩
    · simp only [extend, if_neg (by omega : ¬ n = 0), e1, e2, bind, Except.bind, hz1, hz2]
    · simp [List.length_flatMap, h.wf.lenF]
    · intro g hg t ht
      obtain ⟨f, hf, hgf⟩ := List.mem_flatMap.mp hg
      rw [(List.mem_replicate.mp hgf).2] at ht
      exact h.wf.facesReal f hf t ht

/-- **C07 (`get_mesh_verts_faces`).** Valid indices give the mesh; negative ones and those beyond
`N` give `ValueError`; `index = N` gives `IndexError` because the check is `index > N`. -/
theorem getMeshVertsFaces_spec {ops : Ops P K A E L} {a : Abs P} {s : State P A E L}
    (h : Inv ops a s) (i : Int) :
    (∀ k : Nat, i = k → ∀ hk : k < a.verts.length, ∃ s', getMeshVertsFaces i s =
      .ok ((a.verts[k], a.faces[k]'(by rw [h.wf.lenF]; exact hk)), s') ∧ Inv ops a s') ∧
    ((i < 0 ∨ (a.verts.length : Int) < i) → getMeshVertsFaces i s = .error .valueError) ∧
    (i = a.verts.length → getMeshVertsFaces i s = .error .indexError) := by
  obtain ⟨s1, e1, i1, -⟩ := inv_getVertsList h
  obtain ⟨s2, e2, i2, -⟩ := inv_getFacesList i1
  have hN := h.hN
  have hF := h.wf.lenF
  refine ⟨?_, ?_, ?_⟩
  · rintro k rfl hk
    refine ⟨s2, ?_, i2⟩
    unfold getMeshVertsFaces
    rw [if_neg (by omega)]
    have hkf : k < a.faces.length := by omega
    simp [e1, e2, bind, Except.bind, hk, hkf]
  · intro hi
    unfold getMeshVertsFaces
    rw [if_pos (by omega)]
  · rintro rfl
    unfold getMeshVertsFaces
    rw [if_neg (by omega)]
    simp [e1, e2, bind, Except.bind]

/-! ## C09: batches in which no mesh has both a vertex and a face -/

theorem resetCounts_nums (t : State P A E L) (h : isEmptyBatch (resetCounts t) = true) :
    (resetCounts t).numVerts = [] ∧ (resetCounts t).numFaces = [] := by
  unfold resetCounts at h ⊢
  split
  · exact ⟨rfl, rfl⟩
  · rename_i hc
    rw [if_neg hc] at h
    exact absurd h hc

/-- **C09.** When no mesh has both vertices and faces, whatever vertices the meshes have, the packed
views are empty and the per-mesh counts have size 0, although `verts_list` still has them all. -/
theorem faceless_batch (verts : List (List P)) (faces : List (List Face))
    (hno : ∀ i, ∀ (h : i < verts.length) (h' : i < faces.length),
      verts[i] = [] ∨ faces[i].filter Face.real = []) :
    let s : State P A E L := ofList verts faces
    (∃ s', getVertsList s = .ok (verts, s')) ∧
    (∃ s', getPacked s = .ok (some ⟨[], [], [], [], [], []⟩, s')) ∧
    s.numVerts = [] ∧ s.numFaces = [] ∧ s.N = verts.length := by
  intro s
  have hempty : isEmptyBatch s = true := by
    have hv : s.valid = List.zipWith (fun v f => decide (0 < v ∧ 0 < f)) (verts.map List.length)
        ((faces.map (fun f => f.filter Face.real)).map List.length) := by
      simp only [s, ofList, resetCounts]; split <;> rfl
    simp only [isEmptyBatch, Bool.or_eq_true]
    right
    rw [hv, List.all_eq_true]
    intro b hb
    obtain ⟨k, hk, rfl⟩ := List.getElem_of_mem hb
    simp only [List.length_zipWith, List.length_map] at hk
    have := hno k (by omega) (by omega)
    simp only [List.getElem_zipWith, List.getElem_map]
    rcases this with h | h <;> simp [h]
  have hnums : s.numVerts = [] ∧ s.numFaces = [] := resetCounts_nums _ hempty
  have hvl : s.vertsList = some verts := ofList_vertsList verts faces
  have hfl : s.facesList = some _ := ofList_facesList verts faces
  have hpk : s.packed = none := by simp only [s, ofList, resetCounts]; split <;> rfl
  refine ⟨⟨s, by simp [getVertsList, hvl]⟩, ?_, hnums.1, hnums.2, ofList_N verts faces⟩
  refine ⟨{ s with packed := some ⟨[], [], [], [], [], []⟩, numVerts := [], numFaces := [] }, ?_⟩
  simp [getPacked, computePacked, hpk, getVertsList, hvl, getFacesList, hfl, bind, Except.bind,
    hempty]

/-- The claim "`verts_packed` contains the vertices of `verts_list`" is false: a batch with one
face-less mesh. -/
theorem faceless_batch_counterexample :
    ∃ s' s'' : State Nat Unit Unit Unit,
      getVertsList (ofList [[1, 2, 3]] [[]]) = .ok ([[1, 2, 3]], s') ∧
      getPacked (ofList [[1, 2, 3]] [[]]) = .ok (some ⟨[], [], [], [], [], []⟩, s'') :=
  ⟨_, _, rfl, rfl⟩

/-- A padded batch all of whose faces are padding is accepted, but `verts_list()` then raises. -/
theorem padded_all_pad (w : Nat) (verts : List (List P)) (faces : List (List Face))
    (hN : verts ≠ [])
    (hpad : ∀ r ∈ faces, ∀ f ∈ r, Face.real f = false) :
    ∃ s : State P A E L, ofPadded w verts faces = .ok s ∧ getVertsList s = .error .valueError := by
  have hmap : ∀ r ∈ faces, ∀ b ∈ r.map Face.real, b = false := by
    intro r hr b hb
    obtain ⟨f, hf, rfl⟩ := List.mem_map.mp hb
    exact hpad r hr f hf
  have hrise : (faces.map (fun r => r.map Face.real)).any hasRise = false := by
    rw [List.any_map, List.any_eq_false]
    intro r hr
    rw [Bool.not_eq_true]
    have := hmap r hr
    simp only [Function.comp]
    have h4 : ∀ m : List Bool, (∀ b ∈ m, b = false) → hasRise m = false := by
      intro m
      induction m with
      | nil => intro _; rfl
      | cons b m ihm =>
        intro hb
        cases m with
        | nil => rfl
        | cons c m =>
          have h1 := hb c (by simp)
          subst h1
          simp only [hasRise, Bool.and_false, Bool.false_or]
          exact ihm (fun d hd => hb d (by simp only [List.mem_cons] at hd ⊢; tauto))
    exact h4 _ this
  refine ⟨_, by simp only [ofPadded, hrise, Bool.false_eq_true, if_false]; rfl, ?_⟩
  unfold resetCounts
  rw [if_pos]
  · simp only [getVertsList, paddedToList, bind, Except.bind]
    rw [if_pos]
    simpa using hN
  · simp only [isEmptyBatch, Bool.or_eq_true, List.all_eq_true]
    right
    intro b hb
    simp only [List.map_map, List.mem_map, Function.comp] at hb
    obtain ⟨r, hr, rfl⟩ := hb
    have : List.countP id (r.map Face.real) = 0 := by
      rw [List.countP_eq_zero]
      intro b hb
      simp [hmap r hr b hb]
    simp [this]

/-! ## C11: scenes -/

theorem real_shift {f : Face} (h : Face.real f = true) (o : Nat) : Face.real (f.shift o) = true := by
  obtain ⟨x, y, z⟩ := f
  simp only [Face.real, Face.shift, Bool.and_eq_true, decide_eq_true_eq] at h ⊢
  refine ⟨?_, ?_, ?_⟩
  · have := h.1
    apply decide_eq_true
    omega
  · have := h.2.1
    apply decide_eq_true
    omega
  · have := h.2.2
    apply decide_eq_true
    omega

/-- **C11.** Joining a batch of at least two meshes as a scene gives one mesh with all vertices in
order and the packed faces. -/
theorem joinScene_spec {ops : Ops P K A E L} {a : Abs P} {s : State P A E L} (h : Inv ops a s)
    (h2 : a.verts.length ≠ 1) :
    ∃ m, joinScene s = .ok m ∧ Inv ops (Abs.ofPadded [a.verts.flatten] [a.facesPacked]) m := by
  obtain ⟨s1, e1, i1, p1, -⟩ := inv_computePacked h
  have hreal : ∀ g ∈ a.facesPacked, Face.real g = true := by
    intro g hg
    obtain ⟨k, hk⟩ := List.getElem?_of_mem hg
    obtain ⟨m, hm, _, f, hf, rfl⟩ := facesPackedAux_getElem 0 a.verts a.faces h.wf.lenF k g hk
    have := h.wf.facesReal _ (List.getElem_mem hm) f hf
    exact real_shift this _
  obtain ⟨i, hi, hvi, hfi⟩ := h.wf.nonempty
  have hpos : 0 < a.verts.flatten.length := by
    rw [List.length_flatten]
    have hle := block_le (a.verts.map List.length) i (by simpa using hi)
    rw [List.getElem_map] at hle
    have := List.length_pos_iff.mpr hvi
    omega
  have hfne : a.facesPacked ≠ [] := by
    obtain ⟨f, hf⟩ := List.exists_mem_of_ne_nil _ hfi
    exact List.ne_nil_of_mem (facesPackedAux_mem 0 a.verts a.faces h.wf.lenF i _ f hf)
  have htw : a.facesPacked.takeWhile Face.real = a.facesPacked := by
    generalize a.facesPacked = l at hreal
    induction l with
    | nil => rfl
    | cons x l ih =>
      rw [List.takeWhile_cons, if_pos (hreal x (by simp)), ih (fun g hg => hreal g (by simp [hg]))]
  have hrise : hasRise (a.facesPacked.map Face.real) = false := by
    have h4 : ∀ m : List Bool, (∀ b ∈ m, b = true) → hasRise m = false := by
      intro m
      induction m with
      | nil => intro _; rfl
      | cons b m ihm =>
        intro hb
        cases m with
        | nil => rfl
        | cons c m =>
          have h1 := hb b (by simp)
          subst h1
          simp only [hasRise, Bool.not_true, Bool.false_and, Bool.false_or]
          exact ihm (fun d hd => hb d (by simp only [List.mem_cons] at hd ⊢; tauto))
    apply h4
    intro b hb
    obtain ⟨f, hf, rfl⟩ := List.mem_map.mp hb
    exact hreal f hf
  obtain ⟨m, em, im⟩ := inv_ofPadded (L := L) (E := E) (A := A) ops a.verts.flatten.length
    [a.verts.flatten] [a.facesPacked] rfl hpos (by simp) (by simp [hrise])
    ⟨a.facesPacked, by simp, by rw [htw]; exact hfne⟩
  refine ⟨m, ?_, im⟩
  unfold joinScene
  rw [if_neg (by rw [h.hN]; exact h2)]
  simp only [e1, p1, bind, Except.bind]
  exact em

/-- Corner coordinates of a face: `none` when an index is out of range. -/
def coords {X : Type} (l : List X) (f : Face) : Option X × Option X × Option X :=
  let g := fun i : Int => if 0 ≤ i then l[i.toNat]? else none
  (g f.1, g f.2.1, g f.2.2)

theorem coords_shift (vs : List (List P)) (m : Nat) (hm : m < vs.length) (f : Face)
    (hf : f.InRange vs[m].length) :
    coords vs.flatten (f.shift ((vs.take m).map List.length).sum) = coords vs[m] f := by
  have key : ∀ i : Int, 0 ≤ i → i < vs[m].length →
      (if 0 ≤ i + ((vs.take m).map List.length).sum then
        vs.flatten[(i + (((vs.take m).map List.length).sum : Nat)).toNat]? else none)
      = (if 0 ≤ i then vs[m][i.toNat]? else none) := by
    intro i h0 h1
    rw [if_pos (by omega), if_pos h0]
    have e : vs.flatten = (vs.take m).flatten ++ (vs[m] ++ (vs.drop (m + 1)).flatten) := by
      have e2 : vs = vs.take m ++ (vs[m] :: vs.drop (m + 1)) := by
        rw [← List.drop_eq_getElem_cons hm, List.take_append_drop]
      have e3 := congrArg List.flatten e2
      rwa [List.flatten_append, List.flatten_cons] at e3
    have hl : (vs.take m).flatten.length = ((vs.take m).map List.length).sum := List.length_flatten
    rw [e, List.getElem?_append_right (by rw [hl]; omega), hl, List.getElem?_append_left (by omega)]
    congr 1; omega
  obtain ⟨r0, r1, r2⟩ := hf
  exact Prod.ext (key _ r0.1 r0.2) (Prod.ext (key _ r1.1 r1.2) (key _ r2.1 r2.2))

/-- **C11 (triangles).** In the scene, the `k`-th face overall has the same corner coordinates as it
had in its own mesh; the faces come in the order of the batch. -/
theorem scene_triangles (a : Abs P) (hlen : a.faces.length = a.verts.length) (hok : a.FacesOK) :
    a.facesPacked.map (coords a.verts.flatten)
      = (List.zipWith (fun v fs => fs.map (coords v)) a.verts a.faces).flatten := by
  have gen : ∀ (pre vs : List (List P)) (fs : List (List Face)), fs.length = vs.length →
      (∀ (m : Nat) (h1 : m < vs.length) (h2 : m < fs.length), ∀ f ∈ fs[m], f.InRange vs[m].length) →
      (Abs.facesPackedAux (pre.map List.length).sum vs fs).map (coords (pre ++ vs).flatten)
        = (List.zipWith (fun v fs => fs.map (coords v)) vs fs).flatten := by
    intro pre vs
    induction vs generalizing pre with
    | nil => intro fs _ _; cases fs <;> rfl
    | cons v vs ih =>
      intro fs hl hr
      cases fs with
      | nil => rfl
      | cons f fs =>
        simp only [Abs.facesPackedAux, List.map_append, List.zipWith_cons_cons, List.flatten_cons]
        congr 1
        · rw [List.map_map]
          apply List.map_congr_left
          intro t ht
          have h0 := hr 0 (by simp) (by simp) t (by simpa using ht)
          have := coords_shift (pre ++ v :: vs) pre.length (by simp) t (by simpa using h0)
          simpa using this
        · have := ih (pre ++ [v]) fs (by simpa using hl) (by
            intro m h1 h2 t ht
            have := hr (m + 1) (by simpa using h1) (by simpa using h2) t (by simpa using ht)
            simpa using this)
          simp only [List.map_append, List.map_cons, List.map_nil, List.sum_append, List.sum_cons,
            List.sum_nil, Nat.add_zero, List.append_assoc, List.cons_append, List.nil_append] at this
          exact this
  have := gen [] a.verts a.faces hlen hok
  simpa [Abs.facesPacked] using this

/-! ## C10: submeshes -/

theorem gatherInt_ok {X : Type} (l : List X) (ids : List Int)
    (h : ∀ i ∈ ids, -(l.length : Int) ≤ i ∧ i < l.length) :
    ∃ r, gatherInt l ids = .ok r ∧
      List.Forall₂ (fun (i : Int) x => l[(i % (l.length : Int)).toNat]? = some x) ids r := by
  unfold gatherInt
  induction ids with
  | nil => exact ⟨[], rfl, .nil⟩
  | cons i ids ih =>
    obtain ⟨r, h1, h2⟩ := ih (fun j hj => h j (by simp [hj]))
    have hi := h i (by simp)
    have hlt := emod_toNat_lt hi
    refine ⟨l[(i % (l.length : Int)).toNat] :: r, ?_, .cons (by simp [hlt]) h2⟩
    rw [List.mapM_cons, pyIndex_eq, if_pos hi, h1]
    simp [hlt, bind, Except.bind, pure, Except.pure]

/-- The corners of the faces in a list. -/
def usedVerts (fs : List Face) : List Int := fs.flatMap (fun f => [f.1, f.2.1, f.2.2])

theorem mem_usedVerts {fs : List Face} {v : Int} :
    v ∈ usedVerts fs ↔ ∃ f ∈ fs, v = f.1 ∨ v = f.2.1 ∨ v = f.2.2 := by
  simp [usedVerts]

/-- **C10 (one submesh).** For in-range face indices (negative ones wrap, as in torch) and faces
whose corners are vertices of the mesh: the submesh has one face per selected face, in order, with
the same corner coordinates; its vertices are exactly the used ones, each once, in increasing
original order. -/
theorem submesh_spec (verts : List P) (faces : List Face) (ids : List Int)
    (hids : ∀ i ∈ ids, -(faces.length : Int) ≤ i ∧ i < faces.length)
    (hr : ∀ f ∈ faces, f.InRange verts.length) :
    ∃ sv sf keep, submesh verts faces ids = .ok (sv, sf) ∧
      List.Forall₂ (fun (i : Int) f => faces[(i % (faces.length : Int)).toNat]? = some f) ids keep ∧
      sf.map (coords sv) = keep.map (coords verts) ∧
      (∀ f ∈ sf, Face.real f = true) ∧
      ∃ u : List Int, u.Pairwise (· < ·) ∧ (∀ v, v ∈ u ↔ v ∈ usedVerts keep) ∧
        List.Forall₂ (fun (v : Int) x => verts[v.toNat]? = some x) u sv := by
  obtain ⟨keep, hk, hkeep⟩ := gatherInt_ok faces ids hids
  have hkm : ∀ f ∈ keep, f ∈ faces := by
    clear hk
    induction hkeep with
    | nil => simp
    | cons h1 _ ih =>
      intro f hf
      rcases List.mem_cons.mp hf with rfl | hf
      · exact List.mem_of_getElem? h1
      · exact ih (fun i hi => hids i (by simp [hi])) f hf
  set u := uniqueInts (usedVerts keep) with hu
  have humem : ∀ v, v ∈ u ↔ v ∈ usedVerts keep := fun v => mem_uniqueSorted
  have hur : ∀ v ∈ u, 0 ≤ v ∧ v < verts.length := by
    intro v hv
    obtain ⟨f, hf, h⟩ := mem_usedVerts.mp ((humem v).mp hv)
    obtain ⟨r0, r1, r2⟩ := hr f (hkm f hf)
    rcases h with rfl | rfl | rfl
    · exact r0
    · exact r1
    · exact r2
  obtain ⟨sv, hs, hsv⟩ := gatherInt_ok verts u (fun v hv => by have := hur v hv; omega)
  have hsv' : List.Forall₂ (fun (v : Int) x => verts[v.toNat]? = some x) u sv := by
    have := List.forall₂_iff_get.mp hsv
    rw [List.forall₂_iff_get]
    refine ⟨this.1, fun i h1 h2 => ?_⟩
    have h3 := this.2 i h1 h2
    have h4 := hur _ (List.get_mem u ⟨i, h1⟩)
    rwa [Int.emod_eq_of_lt h4.1 h4.2] at h3
  have hnodup : u.Nodup := (uniqueSorted_lt (usedVerts keep)).imp (fun h => ne_of_lt h)
  -- looking up the new index in the new vertices is looking up the old one in the old vertices
  have hlook : ∀ v ∈ u, sv[(u.idxOf v : Int).toNat]? = verts[v.toNat]? := by
    intro v hv
    have hi : u.idxOf v < u.length := List.idxOf_lt_length_iff.mpr hv
    have := List.forall₂_iff_get.mp hsv'
    have h2 : u.idxOf v < sv.length := by rw [← this.1]; exact hi
    have h3 := this.2 (u.idxOf v) hi h2
    simp only [List.get_eq_getElem, List.getElem_idxOf] at h3
    rw [h3]
    simp [h2]
  refine ⟨sv, keep.map (fun f => ((u.idxOf f.1 : Int), (u.idxOf f.2.1 : Int), (u.idxOf f.2.2 : Int))),
    keep, ?_, hkeep, ?_, ?_, u, uniqueSorted_lt _, humem, hsv'⟩
  · have hs' : gatherInt verts (uniqueInts (keep.flatMap (fun f => [f.1, f.2.1, f.2.2]))) = .ok sv := hs
    simp only [submesh, hk, hs', bind, Except.bind]
    rfl
  · rw [List.map_map]
    apply List.map_congr_left
    intro f hf
    have m0 : f.1 ∈ u := (humem _).mpr (mem_usedVerts.mpr ⟨f, hf, Or.inl rfl⟩)
    have m1 : f.2.1 ∈ u := (humem _).mpr (mem_usedVerts.mpr ⟨f, hf, Or.inr (Or.inl rfl)⟩)
    have m2 : f.2.2 ∈ u := (humem _).mpr (mem_usedVerts.mpr ⟨f, hf, Or.inr (Or.inr rfl)⟩)
    simp only [Function.comp, coords]
    rw [if_pos (by omega), if_pos (by omega), if_pos (by omega), if_pos (hur _ m0).1,
      if_pos (hur _ m1).1, if_pos (hur _ m2).1, hlook _ m0, hlook _ m1, hlook _ m2]
  · intro f hf
    obtain ⟨g, hg, rfl⟩ := List.mem_map.mp hf
    simp only [Face.real, Bool.and_eq_true, decide_eq_true_eq]
    omega

/-- The pair returned for one selection, for stating `submeshes_spec`. -/
def IsSub (verts : List P) (faces : List Face) (ids : List Int) (r : List P × List Face) : Prop :=
  submesh verts faces ids = .ok r

/-- **C10.** `submeshes` produces one mesh per selection, in order (all selections of mesh 0, then
of mesh 1, ...), each being the submesh described by `submesh_spec`; it leaves the source unchanged;
a wrong number of selections is rejected. -/
theorem submeshes_spec {ops : Ops P K A E L} {a : Abs P} {s : State P A E L} (h : Inv ops a s)
    (hok : a.FacesOK) (sel : List (List (List Int))) :
    (sel.length ≠ a.verts.length → submeshes sel s = .error .valueError) ∧
    (sel.length = a.verts.length →
      (∀ (m : Nat) (h1 : m < sel.length) (h2 : m < a.faces.length), ∀ ids ∈ sel[m], ∀ i ∈ ids,
        -(a.faces[m].length : Int) ≤ i ∧ i < a.faces[m].length) →
      ∃ subs m s', submeshes sel s = .ok (m, s') ∧ Inv ops a s' ∧
        List.Forall₂ (fun (t : List (List Int) × List Face × List P) rs =>
          List.Forall₂ (fun ids r => IsSub t.2.2 t.2.1 ids r) t.1 rs)
          (sel.zip (a.faces.zip a.verts)) subs ∧
        Holds ops (subs.flatten.map Prod.fst) (subs.flatten.map Prod.snd) m) := by
  constructor
  · intro hl
    unfold submeshes
    rw [if_pos (by rw [h.hN]; exact hl)]
  · intro hl hsel
    obtain ⟨s1, e1, i1, -⟩ := inv_getFacesList h
    obtain ⟨s2, e2, i2, -⟩ := inv_getVertsList i1
    have hex : ∀ t ∈ sel.zip (a.faces.zip a.verts), ∃ rs,
        t.1.mapM (fun ids => submesh t.2.2 t.2.1 ids) = .ok rs := by
      intro t ht
      obtain ⟨k, hk, rfl⟩ := List.getElem_of_mem ht
      simp only [List.length_zip, h.wf.lenF] at hk
      have hkf : k < a.faces.length := by rw [h.wf.lenF]; omega
      obtain ⟨ys, hy, -⟩ := mapM_ok_exists (fun ids => submesh (a.verts[k]'(by omega)) a.faces[k] ids)
        (sel[k]'(by omega)) (by
          intro ids hids
          obtain ⟨sv, sf, _, he, _⟩ := submesh_spec (a.verts[k]'(by omega)) a.faces[k] ids
            (hsel k (by omega) hkf ids hids) (hok k (by omega) hkf)
          exact ⟨_, he⟩)
      exact ⟨ys, by simpa using hy⟩
    obtain ⟨subs, hs, hf⟩ := mapM_ok_exists _ _ hex
    have hf2 : List.Forall₂ (fun (t : List (List Int) × List Face × List P) rs =>
          List.Forall₂ (fun ids r => IsSub t.2.2 t.2.1 ids r) t.1 rs)
          (sel.zip (a.faces.zip a.verts)) subs := by
      refine hf.imp ?_
      intro t rs hrs
      have : ∀ x ∈ t.1, ∃ y, submesh t.2.2 t.2.1 x = .ok y := by
        intro x hx
        by_contra hc
        push Not at hc
        cases hxs : submesh t.2.2 t.2.1 x with
        | ok y => exact hc y hxs
        | error e =>
          exfalso
          have gen : ∀ (l : List (List Int)) rs, x ∈ l →
              l.mapM (fun ids => submesh t.2.2 t.2.1 ids) = .ok rs → False := by
            intro l
            induction l with
            | nil => intro rs hx; simp at hx
            | cons z l ih =>
              intro rs hx hm
              rw [List.mapM_cons] at hm
              cases hz : submesh t.2.2 t.2.1 z with
              | error e => rw [hz] at hm; simp [bind, Except.bind] at hm
              | ok y =>
                rw [hz] at hm
                rcases List.mem_cons.mp hx with rfl | hx
                · rw [hxs] at hz; simp at hz
                · cases hl : l.mapM (fun ids => submesh t.2.2 t.2.1 ids) with
                  | error e => rw [hl] at hm; simp [bind, Except.bind] at hm
                  | ok q => exact ih q hx hl
          exact gen t.1 rs hx hrs
      obtain ⟨ys, hy, hyf⟩ := mapM_ok_exists _ t.1 this
      rw [hy] at hrs
      cases hrs
      exact hyf
    refine ⟨subs, _, s2, ?_, i2, hf2, holds_ofList ops _ _ (by rw [List.length_map, List.length_map]) ?_⟩
    · unfold submeshes
      rw [if_neg (by rw [h.hN]; simpa using hl)]
      simp only [e1, e2, bind, Except.bind] at hs ⊢
      rw [hs]
    · intro g hg t ht
      obtain ⟨r, hr, rfl⟩ := List.mem_map.mp hg
      obtain ⟨rs, hrs, hr2⟩ := List.mem_flatten.mp hr
      obtain ⟨k, hk, rfl⟩ := List.getElem_of_mem hrs
      have hh := List.forall₂_iff_get.mp hf2
      have hk2 : k < (sel.zip (a.faces.zip a.verts)).length := by rw [hh.1]; exact hk
      have hk3 := hh.2 k hk2 hk
      simp only [List.length_zip, h.wf.lenF] at hk2
      have hkf : k < a.faces.length := by rw [h.wf.lenF]; omega
      simp only [List.get_eq_getElem, List.getElem_zip] at hk3
      obtain ⟨j, hj, rfl⟩ := List.getElem_of_mem hr2
      have hh2 := List.forall₂_iff_get.mp hk3
      have hj2 : j < sel[k].length := by rw [hh2.1]; exact hj
      have hsub := hh2.2 j hj2 hj
      obtain ⟨sv, sf, _, he, _, _, hreal, _⟩ := submesh_spec (a.verts[k]'(by omega)) a.faces[k]
        sel[k][j] (hsel k (by omega) hkf _ (List.getElem_mem hj2)) (hok k (by omega) hkf)
      simp only [IsSub, List.get_eq_getElem] at hsub
      rw [he] at hsub
      cases hsub' : subs[k][j] with
      | mk p q =>
        rw [hsub'] at hsub ht
        cases hsub
        exact hreal t ht

/-! ## The hypotheses are satisfiable -/

/-- A batch of two meshes (one built from three triangles' worth of lists), used below. -/
def exVerts : List (List Nat) := [[10, 11, 12, 13], [20, 21, 22]]
def exFaces : List (List Face) := [[(0, 1, 2), (2, 1, 3)], [(0, 2, 1)]]

example : (∃ i, ∃ (h : i < exVerts.length) (h' : i < exFaces.length), exVerts[i] ≠ [] ∧
    exFaces[i].filter Face.real ≠ []) ∧
    (Abs.ofLists 0 exVerts exFaces).FacesOK ∧
    Index.Selects 2 [1, 0] (.ints [-1, 0]) ∧ Index.Selects 2 [1] (.mask [false, true]) ∧
    Index.Selects 2 [1] (.slice 1 7) ∧
    submesh [10, 11, 12, 13] [(0, 1, 2), (2, 1, 3)] [-1] = .ok ([11, 12, 13], [(1, 0, 2)]) := by
  refine ⟨⟨0, by decide, by decide, by decide, by decide⟩, ?_, ⟨by decide, by decide⟩, ?_, by
    show _ = _; decide, by rfl⟩
  · intro m h1 h2 f hf
    have : m = 0 ∨ m = 1 := by simp [Abs.ofLists, exVerts] at h1; omega
    rcases this with rfl | rfl
    · have hf' : f ∈ [((0, 1, 2) : Face), (2, 1, 3)] := hf
      show f.InRange 4
      clear hf
      revert f
      decide
    · have hf' : f ∈ [((0, 2, 1) : Face)] := hf
      show f.InRange 3
      clear hf
      revert f
      decide
  · refine ⟨fun k hk => ?_, by decide⟩
    rw [List.getD_eq_getElem?_getD, List.getElem?_eq_none (by simpa using hk)]; rfl

end P3D.Meshes
