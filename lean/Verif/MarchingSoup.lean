/-
Marching cubes over a whole grid: the triangles drawn by the table in all cells fit together.
The vertices are the grid edges (pairs of grid points) cut by the surface.
-/
import Verif.MarchingTable
import Mathlib.Data.List.Nodup

set_option linter.unusedSectionVars false

namespace P3D.Marching

open P3D.Closed

/-- Vertices of the surface: grid edges, as ordered pairs of grid points. -/
abbrev Key := P × P

/-- `cubeindex` of the cell with lowest corner `c` (marching_cubes_utils.h:76-84, marching_cubes.py:64-70);
`below p` says that the value at grid point `p` is less than the iso level. -/
def cubeIndex (below : P → Bool) (c : P) : Nat := build fun i => below (padd c (corner (indexTable.getD i 0)))

/-- The grid edge of local edge `e` in cell `c`. -/
def cellEdge (c : P) (e : Nat) : Key := (padd c (lo e), padd c (hi e))

/-- The cells in loop order (marching_cubes_cpu.cpp:47-49). -/
def cells (W H D : Nat) : List P :=
  (List.range (D - 1)).flatMap fun z => (List.range (H - 1)).flatMap fun y => (List.range (W - 1)).map fun x => (x, y, z)

/-- The triangles of one cell. -/
def cellTris (below : P → Bool) (c : P) : List (Key × Key × Key) :=
  triples ((row (cubeIndex below c)).map (cellEdge c))

/-- The triangles of all cells, none dropped. -/
def soup (below : P → Bool) (W H D : Nat) : List (Key × Key × Key) := (cells W H D).flatMap (cellTris below)

/-! ### Local facts -/

theorem cubeIndex_lt (below : P → Bool) (c : P) : cubeIndex below c < 256 := build_lt _

theorem sign_cubeIndex (below : P → Bool) (c : P) {v : Nat} (hv : v < 8) :
    sign (cubeIndex below c) v = below (padd c (corner v)) := by
  unfold sign cubeIndex
  rw [build_testBit _ _ (by revert v; decide)]
  interval_cases v <;> rfl

theorem edgeVerts_lt {e : Nat} (he : e < 12) : (edgeVerts e).1 < 8 ∧ (edgeVerts e).2 < 8 := by
  interval_cases e <;> decide

theorem cut_cubeIndex (below : P → Bool) (c : P) {e : Nat} (he : e < 12) :
    cut (cubeIndex below c) e = (below (padd c (lo e)) != below (padd c (hi e))) := by
  unfold cut lo hi
  rw [sign_cubeIndex _ _ (edgeVerts_lt he).1, sign_cubeIndex _ _ (edgeVerts_lt he).2]

/-- Neighbouring cells see the same signs on their common face. -/
theorem ext_neighbour (below : P → Bool) (c : P) {ax : Nat} (hax : ax < 3) :
    ext 1 ax (cubeIndex below c) = ext 0 ax (cubeIndex below (padd c (unit ax))) := by
  unfold ext
  apply build_congr
  intro i hi
  have h1 : cornerIdx (setc ax 1 (corner (indexTable.getD i 0))) < 8 := by interval_cases ax <;> interval_cases i <;> decide
  have h0 : cornerIdx (setc ax 0 (corner (indexTable.getD i 0))) < 8 := by interval_cases ax <;> interval_cases i <;> decide
  rw [sign_cubeIndex _ _ h1, sign_cubeIndex _ _ h0]
  congr 1
  have e : corner (cornerIdx (setc ax 1 (corner (indexTable.getD i 0))))
      = padd (unit ax) (corner (cornerIdx (setc ax 0 (corner (indexTable.getD i 0))))) := by
    interval_cases ax <;> interval_cases i <;> decide
  rw [e]
  simp only [padd, Prod.mk.injEq]
  refine ⟨?_, ?_, ?_⟩ <;> omega

theorem triples_map {α β : Type} (f : α → β) : ∀ l : List α,
    triples (l.map f) = (triples l).map fun t => (f t.1, f t.2.1, f t.2.2)
  | [] => rfl
  | [_] => rfl
  | [_, _] => rfl
  | a :: b :: c :: l => by simp only [List.map_cons, triples, triples_map f l]

theorem dirEdges_map {α β : Type} (f : α → β) (l : List (α × α × α)) :
    dirEdges (l.map fun t => (f t.1, f t.2.1, f t.2.2)) = (dirEdges l).map fun d => (f d.1, f d.2) := by
  unfold dirEdges
  induction l with
  | nil => rfl
  | cons t l ih => simp only [List.map_cons, List.flatMap_cons, ih, List.map_append, triEdges, List.map_nil]

theorem mem_triples {α : Type} : ∀ (l : List α) (t : α × α × α), t ∈ triples l → t.1 ∈ l ∧ t.2.1 ∈ l ∧ t.2.2 ∈ l
  | [], _, h => by simp [triples] at h
  | [_], _, h => by simp [triples] at h
  | [_, _], _, h => by simp [triples] at h
  | a :: b :: c :: l, t, h => by
    simp only [triples, List.mem_cons] at h
    rcases h with rfl | h
    · simp
    · have := mem_triples l t h
      simp only [List.mem_cons]; tauto

theorem mem_dirEdges_triples {α : Type} (l : List α) (d : α × α) (h : d ∈ dirEdges (triples l)) : d.1 ∈ l ∧ d.2 ∈ l := by
  unfold dirEdges at h
  rw [List.mem_flatMap] at h
  obtain ⟨t, ht, hd⟩ := h
  have := mem_triples l t ht
  simp only [triEdges, List.mem_cons, List.not_mem_nil, or_false] at hd
  rcases hd with rfl | rfl | rfl <;> simp_all

theorem triples_cover {α : Type} : ∀ (l : List α), l.length % 3 = 0 → ∀ x ∈ l, ∃ t ∈ triples l, x = t.1 ∨ x = t.2.1 ∨ x = t.2.2
  | [], _, x, h => by simp at h
  | [_], h, _, _ => by simp at h
  | [_, _], h, _, _ => by simp at h
  | a :: b :: c :: l, h, x, hx => by
    have h' : l.length % 3 = 0 := by simp only [List.length_cons] at h; omega
    simp only [List.mem_cons] at hx
    rcases hx with rfl | rfl | rfl | hx
    · exact ⟨_, by simp [triples]; left; rfl, by simp⟩
    · exact ⟨_, by simp [triples]; left; rfl, by simp⟩
    · exact ⟨_, by simp [triples]; left; rfl, by simp⟩
    · obtain ⟨t, ht, h⟩ := triples_cover l h' x hx
      exact ⟨t, by simp [triples, ht], h⟩

theorem padd_cancel {c p q : P} (h : padd c p = padd c q) : p = q := by
  obtain ⟨a, b, d⟩ := p
  obtain ⟨a', b', d'⟩ := q
  simp only [padd, Prod.mk.injEq] at h ⊢
  omega

theorem edge_inj : ∀ e < 12, ∀ e' < 12, lo e = lo e' → hi e = hi e' → e = e' := by decide

theorem cellEdge_inj {c : P} {e e' : Nat} (he : e < 12) (he' : e' < 12) (h : cellEdge c e = cellEdge c e') : e = e' := by
  simp only [cellEdge, Prod.mk.injEq] at h
  exact edge_inj e he e' he' (padd_cancel h.1) (padd_cancel h.2)

theorem cell_edges (below : P → Bool) (c : P) :
    dirEdges (cellTris below c) = (de (cubeIndex below c)).map fun d => (cellEdge c d.1, cellEdge c d.2) := by
  rw [cellTris, triples_map, dirEdges_map]; rfl

theorem mem_row_of_de {r : Nat} {d : Nat × Nat} (h : d ∈ de r) : d.1 ∈ row r ∧ d.2 ∈ row r := mem_dirEdges_triples _ _ h

theorem dirEdges_flatMap {α β : Type} (l : List α) (f : α → List (β × β × β)) :
    dirEdges (l.flatMap f) = l.flatMap fun c => dirEdges (f c) := by
  unfold dirEdges; rw [List.flatMap_assoc]

theorem mem_soup_edges {below : P → Bool} {W H D : Nat} {a b : Key} :
    (a, b) ∈ dirEdges (soup below W H D) ↔ ∃ c ∈ cells W H D, ∃ d ∈ de (cubeIndex below c),
      a = cellEdge c d.1 ∧ b = cellEdge c d.2 := by
  rw [soup, dirEdges_flatMap, List.mem_flatMap]
  simp only [cell_edges, List.mem_map, Prod.mk.injEq]
  constructor
  · rintro ⟨c, hc, d, hd, rfl, rfl⟩; exact ⟨c, hc, d, hd, rfl, rfl⟩
  · rintro ⟨c, hc, d, hd, rfl, rfl⟩; exact ⟨c, hc, d, hd, rfl, rfl⟩

theorem mem_cells {W H D : Nat} {c : P} :
    c ∈ cells W H D ↔ c.1 + 1 < W ∧ c.2.1 + 1 < H ∧ c.2.2 + 1 < D := by
  obtain ⟨x, y, z⟩ := c
  simp only [cells, List.mem_flatMap, List.mem_map, List.mem_range, Prod.mk.injEq]
  constructor
  · rintro ⟨z', hz, y', hy, x', hx, rfl, rfl, rfl⟩; omega
  · rintro ⟨hx, hy, hz⟩; exact ⟨z, by omega, y, by omega, x, by omega, rfl, rfl, rfl⟩

theorem nodup_cells (W H D : Nat) : (cells W H D).Nodup := by
  unfold cells
  rw [List.nodup_flatMap]
  refine ⟨fun z _ => ?_, ?_⟩
  · rw [List.nodup_flatMap]
    refine ⟨fun y _ => ?_, ?_⟩
    · exact List.nodup_range.map (fun a b h => by simpa using h)
    · refine List.nodup_range.imp ?_
      intro a b hab
      simp only [Function.onFun, List.Disjoint, List.mem_map]
      rintro p ⟨x, _, rfl⟩ ⟨x', _, h⟩
      simp only [Prod.mk.injEq] at h; omega
  · refine List.nodup_range.imp ?_
    intro a b hab
    simp only [Function.onFun, List.Disjoint, List.mem_map, List.mem_flatMap]
    rintro p ⟨y, _, x, _, rfl⟩ ⟨y', _, x', _, h⟩
    simp only [Prod.mk.injEq] at h; omega

/-- Two cells containing the same two grid edges are equal or neighbours across the face of both. -/
theorem shared_edges {c c' : P} {e1 e1' e2 e2' : Nat} (h1 : e1 < 12) (h1' : e1' < 12) (h2 : e2 < 12) (h2' : e2' < 12)
    (hne : e1 ≠ e2) (k1 : cellEdge c e1 = cellEdge c' e1') (k2 : cellEdge c e2 = cellEdge c' e2') :
    (c' = c ∧ e1' = e1 ∧ e2' = e2) ∨ ∃ ax < 3, e1' = flip ax e1 ∧ e2' = flip ax e2 ∧
      ((onFace ax 1 e1 = true ∧ onFace ax 1 e2 = true ∧ c' = padd c (unit ax)) ∨
        (onFace ax 0 e1 = true ∧ onFace ax 0 e2 = true ∧ c = padd c' (unit ax))) := by
  simp only [cellEdge, Prod.mk.injEq] at k1 k2
  have key : ∀ {a b u v w x : P}, padd a u = padd b v → padd a w = padd b x → padd u x = padd v w := by
    rintro ⟨a1, a2, a3⟩ ⟨b1, b2, b3⟩ ⟨u1, u2, u3⟩ ⟨v1, v2, v3⟩ ⟨w1, w2, w3⟩ ⟨x1, x2, x3⟩ h h'
    simp only [padd, Prod.mk.injEq] at h h' ⊢
    omega
  have key2 : ∀ {a b u v w : P}, padd a u = padd b v → u = padd v w → b = padd a w := by
    rintro ⟨a1, a2, a3⟩ ⟨b1, b2, b3⟩ ⟨u1, u2, u3⟩ ⟨v1, v2, v3⟩ ⟨w1, w2, w3⟩ h h'
    simp only [padd, Prod.mk.injEq] at h h' ⊢
    omega
  rcases share_facts h1 h1' h2 h2' hne (key k1.1 k1.2) (key k2.1 k2.2) (key k1.1 k2.1) with ⟨rfl, rfl⟩ | ⟨ax, ha, rfl, rfl, h⟩
  · left
    refine ⟨?_, rfl, rfl⟩
    have := key2 (w := (0, 0, 0)) k1.1 (by simp [padd])
    rw [this]; simp [padd]
  · right
    refine ⟨ax, ha, rfl, rfl, ?_⟩
    rcases h with ⟨ha1, ha2⟩ | ⟨ha1, ha2⟩
    · exact Or.inl ⟨ha1, ha2, key2 k1.1 ((flip_facts ha h1).1 ha1).2.2.2.1⟩
    · exact Or.inr ⟨ha1, ha2, key2 k1.1.symm ((flip_facts ha h1).2 ha1).2.2.2.1⟩

theorem coplanar_iff (e1 e2 : Nat) :
    coplanar e1 e2 = true ↔ ∃ ax < 3, ∃ s < 2, onFace ax s e1 = true ∧ onFace ax s e2 = true := by
  simp only [coplanar, List.any_eq_true, List.mem_range, Bool.and_eq_true]

/-- Segments on the upper face of a cell are those on the lower face of its neighbour, reversed. -/
theorem face_match (below : P → Bool) (c : P) {ax e1 e2 : Nat} (hax : ax < 3) (h1 : e1 < 12) (h2 : e2 < 12)
    (o1 : onFace ax 1 e1 = true) (o2 : onFace ax 1 e2 = true) :
    (e1, e2) ∈ de (cubeIndex below c) ↔ (flip ax e2, flip ax e1) ∈ de (cubeIndex below (padd c (unit ax))) := by
  have f1 := (flip_facts hax h1).1 o1
  have f2 := (flip_facts hax h2).1 o2
  have F := face_facts (cubeIndex_lt below c) hax
  have F' := face_facts (cubeIndex_lt below (padd c (unit ax))) hax
  rw [← ext_neighbour below c hax] at F'
  constructor
  · intro h
    exact F'.2.2.2 _ (F.1 _ h o1 o2) f2.2.2.1 f1.2.2.1
  · intro h
    have := F.2.2.1 _ (F'.2.1 _ h f2.2.2.1 f1.2.2.1) f2.2.2.1 f1.2.2.1
    simpa only [f1.2.1, f2.2.1] using this

theorem cellEdge_flip {c : P} {ax e : Nat} (hax : ax < 3) (he : e < 12) (o : onFace ax 1 e = true) :
    cellEdge (padd c (unit ax)) (flip ax e) = cellEdge c e := by
  have f := (flip_facts hax he).1 o
  simp only [cellEdge, f.2.2.2.1, f.2.2.2.2, padd, Prod.mk.injEq]
  refine ⟨⟨?_, ?_, ?_⟩, ?_, ?_, ?_⟩ <;> omega

/-! ### The surface -/

/-- No directed edge of the surface occurs twice. -/
theorem soup_nodup (below : P → Bool) (W H D : Nat) : (dirEdges (soup below W H D)).Nodup := by
  rw [soup, dirEdges_flatMap, List.nodup_flatMap]
  constructor
  · intro c _
    rw [cell_edges]
    have R := row_facts (cubeIndex_lt below c)
    refine List.Nodup.map_on ?_ R.2.2.2.1
    rintro ⟨a, b⟩ h ⟨a', b'⟩ h' e
    have m := mem_row_of_de h
    have m' := mem_row_of_de h'
    simp only [R.2.2.1] at m m'
    simp only [Prod.mk.injEq] at e ⊢
    exact ⟨cellEdge_inj m.1.1 m'.1.1 e.1, cellEdge_inj m.2.1 m'.2.1 e.2⟩
  · refine (nodup_cells W H D).imp ?_
    intro c c' hcc
    simp only [Function.onFun, List.Disjoint, cell_edges, List.mem_map]
    rintro _ ⟨⟨e1, e2⟩, hd, rfl⟩ ⟨⟨e1', e2'⟩, hd', h⟩
    simp only [Prod.mk.injEq] at h
    have R := row_facts (cubeIndex_lt below c)
    have R' := row_facts (cubeIndex_lt below c')
    have m := mem_row_of_de hd
    have m' := mem_row_of_de hd'
    simp only [R.2.2.1, R'.2.2.1] at m m'
    have hne := (R.2.2.2.2 _ hd).1
    rcases shared_edges m.1.1 m'.1.1 m.2.1 m'.2.1 hne h.1.symm h.2.symm with ⟨h0, _⟩ | ⟨ax, hax, rfl, rfl, h0 | h0⟩
    · exact hcc h0.symm
    · obtain ⟨o1, o2, rfl⟩ := h0
      have := (face_match below c hax m.2.1 m.1.1 o2 o1).mpr hd'
      have hrev := ((R.2.2.2.2 _ hd).2).mp this
      have : coplanar e1 e2 = true := (coplanar_iff _ _).mpr ⟨ax, hax, 1, by omega, o1, o2⟩
      simp_all
    · obtain ⟨o1, o2, rfl⟩ := h0
      have f1 := (flip_facts hax m.1.1).2 o1
      have f2 := (flip_facts hax m.2.1).2 o2
      have := (face_match below c' hax m'.1.1 m'.2.1 f1.2.2.1 f2.2.2.1).mp hd'
      simp only [f1.2.1, f2.2.1] at this
      have hrev := ((R.2.2.2.2 _ hd).2).mp this
      have : coplanar e1 e2 = true := (coplanar_iff _ _).mpr ⟨ax, hax, 0, by omega, o1, o2⟩
      simp_all

/-- Both end points of a grid edge lie in the plane `ax = s`. -/
def InPlane (ax s : Nat) (k : Key) : Prop := comp ax k.1 = s ∧ comp ax k.2 = s

/-- The size of the grid along an axis. -/
def size (W H D ax : Nat) : Nat := if ax = 0 then W else if ax = 1 then H else D

/-- The grid edge lies in the plane `ax = 0` or `ax = size - 1` of the border of the volume. -/
def OnBorder (W H D : Nat) (ax : Nat) (k : Key) : Prop := InPlane ax 0 k ∨ InPlane ax (size W H D ax - 1) k

theorem comp_padd (ax : Nat) (p q : P) : comp ax (padd p q) = comp ax p + comp ax q := by
  unfold comp padd; split_ifs <;> rfl

theorem onFace_iff (ax s e : Nat) : onFace ax s e = true ↔ comp ax (lo e) = s ∧ comp ax (hi e) = s := by
  simp [onFace]

theorem mem_cells_comp {W H D : Nat} {c : P} : c ∈ cells W H D ↔ ∀ ax < 3, comp ax c + 1 < size W H D ax := by
  rw [mem_cells]
  constructor
  · rintro ⟨h0, h1, h2⟩ ax hax
    interval_cases ax <;> simp [comp, size] <;> omega
  · intro h
    have h0 := h 0 (by omega); have h1 := h 1 (by omega); have h2 := h 2 (by omega)
    simp [comp, size] at h0 h1 h2
    exact ⟨h0, h1, h2⟩

theorem comp_unit (ax ay : Nat) (hx : ax < 3) (hy : ay < 3) : comp ay (unit ax) = if ay = ax then 1 else 0 := by
  interval_cases ax <;> interval_cases ay <;> rfl

/-- Every directed edge of the surface has its reverse in the surface, except for edges in the border of the volume. -/
theorem soup_reverse {below : P → Bool} {W H D : Nat} {a b : Key} (h : (a, b) ∈ dirEdges (soup below W H D)) :
    (b, a) ∈ dirEdges (soup below W H D) ∨ ∃ ax < 3, (InPlane ax 0 a ∧ InPlane ax 0 b) ∨
      (InPlane ax (size W H D ax - 1) a ∧ InPlane ax (size W H D ax - 1) b) := by
  rw [mem_soup_edges] at h
  obtain ⟨c, hc, ⟨e1, e2⟩, hd, rfl, rfl⟩ := h
  have R := row_facts (cubeIndex_lt below c)
  have m := mem_row_of_de hd
  simp only [R.2.2.1] at m
  cases hcop : coplanar e1 e2 with
  | false =>
    left
    exact mem_soup_edges.mpr ⟨c, hc, (e2, e1), ((R.2.2.2.2 _ hd).2).mpr hcop, rfl, rfl⟩
  | true =>
    obtain ⟨ax, hax, s, hs, o1, o2⟩ := (coplanar_iff _ _).mp hcop
    rw [mem_cells_comp] at hc
    interval_cases s
    · by_cases h0 : comp ax c = 0
      · right
        refine ⟨ax, hax, Or.inl ?_⟩
        rw [onFace_iff] at o1 o2
        simp only [InPlane, cellEdge, comp_padd]; omega
      · left
        -- the neighbour below
        obtain ⟨c', rfl⟩ : ∃ c', c = padd c' (unit ax) := by
          obtain ⟨x, y, z⟩ := c
          interval_cases ax
          · simp only [comp, if_true] at h0
            exact ⟨(x - 1, y, z), by simp [padd, unit, setc]; omega⟩
          · simp [comp] at h0
            exact ⟨(x, y - 1, z), by simp [padd, unit, setc]; omega⟩
          · simp [comp] at h0
            exact ⟨(x, y, z - 1), by simp [padd, unit, setc]; omega⟩
        have f1 := (flip_facts hax m.1.1).2 o1
        have f2 := (flip_facts hax m.2.1).2 o2
        have q := (face_match below c' hax f2.1 f1.1 f2.2.2.1 f1.2.2.1).mpr (by rw [f1.2.1, f2.2.1]; exact hd)
        refine mem_soup_edges.mpr ⟨c', ?_, _, q, ?_, ?_⟩
        · rw [mem_cells_comp]
          intro ay hay
          have := hc ay hay
          rw [comp_padd, comp_unit _ _ hax hay] at this
          omega
        · have := cellEdge_flip (c := c') hax f2.1 f2.2.2.1; rw [f2.2.1] at this; exact this
        · have := cellEdge_flip (c := c') hax f1.1 f1.2.2.1; rw [f1.2.1] at this; exact this
    · by_cases h0 : comp ax c + 2 = size W H D ax
      · right
        refine ⟨ax, hax, Or.inr ?_⟩
        rw [onFace_iff] at o1 o2
        simp only [InPlane, cellEdge, comp_padd]; omega
      · left
        have q := (face_match below c hax m.1.1 m.2.1 o1 o2).mp hd
        refine mem_soup_edges.mpr ⟨padd c (unit ax), ?_, _, q, ?_, ?_⟩
        · rw [mem_cells_comp]
          intro ay hay
          have := hc ay hay
          rw [comp_padd, comp_unit _ _ hax hay]
          split
          · subst_vars; omega
          · omega
        · exact (cellEdge_flip hax m.2.1 o2).symm
        · exact (cellEdge_flip hax m.1.1 o1).symm

/-- A vertex of a triangle list. -/
def IsVertex {α : Type} (fs : List (α × α × α)) (k : α) : Prop := ∃ t ∈ fs, k = t.1 ∨ k = t.2.1 ∨ k = t.2.2

/-- `k` is an edge of the grid: it joins two grid points one step apart. -/
def GridEdge (W H D : Nat) (k : Key) : Prop :=
  ∃ ax < 3, k.2 = padd k.1 (unit ax) ∧ k.2.1 < W ∧ k.2.2.1 < H ∧ k.2.2.2 < D

theorem edge_axis : ∀ e < 12, ∃ ax < 3, hi e = padd (lo e) (unit ax) := by decide

theorem lo_hi_le : ∀ e < 12, (lo e).1 ≤ 1 ∧ (lo e).2.1 ≤ 1 ∧ (lo e).2.2 ≤ 1 ∧ (hi e).1 ≤ 1 ∧ (hi e).2.1 ≤ 1 ∧ (hi e).2.2 ≤ 1 := by
  decide

theorem isVertex_soup_iff {below : P → Bool} {W H D : Nat} {k : Key} :
    IsVertex (soup below W H D) k ↔ ∃ c ∈ cells W H D, ∃ e ∈ row (cubeIndex below c), k = cellEdge c e := by
  unfold IsVertex soup cellTris
  constructor
  · rintro ⟨t, ht, h⟩
    rw [List.mem_flatMap] at ht
    obtain ⟨c, hc, ht⟩ := ht
    have := mem_triples _ _ ht
    simp only [List.mem_map] at this
    obtain ⟨⟨e1, he1, h1⟩, ⟨e2, he2, h2⟩, e3, he3, h3⟩ := this
    rcases h with rfl | rfl | rfl
    · exact ⟨c, hc, e1, he1, h1.symm⟩
    · exact ⟨c, hc, e2, he2, h2.symm⟩
    · exact ⟨c, hc, e3, he3, h3.symm⟩
  · rintro ⟨c, hc, e, he, rfl⟩
    obtain ⟨t, ht, h⟩ := triples_cover ((row (cubeIndex below c)).map (cellEdge c))
      (by rw [List.length_map]; exact (row_facts (cubeIndex_lt below c)).1) _ (List.mem_map_of_mem he)
    exact ⟨t, List.mem_flatMap.mpr ⟨c, hc, ht⟩, h⟩

/-- The vertices of the surface are exactly the grid edges whose end points are on different sides of the iso level. -/
theorem soup_vertices {below : P → Bool} {W H D : Nat} (hW : 2 ≤ W) (hH : 2 ≤ H) (hD : 2 ≤ D) {k : Key} :
    IsVertex (soup below W H D) k ↔ GridEdge W H D k ∧ below k.1 ≠ below k.2 := by
  rw [isVertex_soup_iff]
  constructor
  · rintro ⟨c, hc, e, he, rfl⟩
    rw [(row_facts (cubeIndex_lt below c)).2.2.1] at he
    rw [cut_cubeIndex below c he.1] at he
    refine ⟨?_, by simpa [cellEdge] using he.2⟩
    obtain ⟨ax, hax, h⟩ := edge_axis e he.1
    have hl := lo_hi_le e he.1
    rw [mem_cells] at hc
    refine ⟨ax, hax, ?_, ?_⟩
    · simp only [cellEdge, h, padd, Prod.mk.injEq]
      refine ⟨?_, ?_, ?_⟩ <;> omega
    · simp only [cellEdge, padd]; omega
  · rintro ⟨⟨ax, hax, h1, h2⟩, hb⟩
    obtain ⟨⟨x, y, z⟩, q⟩ := k
    simp only at h1; subst h1
    -- the cell: step back where the point is the last one
    obtain ⟨e, he, hlo, hhi⟩ : ∃ e < 12, lo e = (x - min x (W - 2), y - min y (H - 2), z - min z (D - 2)) ∧ hi e = padd (lo e) (unit ax) := by
      interval_cases ax
      all_goals
        simp only [padd, unit, setc] at h2
        norm_num at h2
      · have hx : x - min x (W - 2) = 0 := by omega
        rw [hx]
        have hy : y - min y (H - 2) = 0 ∨ y - min y (H - 2) = 1 := by omega
        have hz : z - min z (D - 2) = 0 ∨ z - min z (D - 2) = 1 := by omega
        rcases hy with hy | hy <;> rcases hz with hz | hz <;> rw [hy, hz] <;> decide
      · have hy : y - min y (H - 2) = 0 := by omega
        rw [hy]
        have hx : x - min x (W - 2) = 0 ∨ x - min x (W - 2) = 1 := by omega
        have hz : z - min z (D - 2) = 0 ∨ z - min z (D - 2) = 1 := by omega
        rcases hx with hx | hx <;> rcases hz with hz | hz <;> rw [hx, hz] <;> decide
      · have hz : z - min z (D - 2) = 0 := by omega
        rw [hz]
        have hx : x - min x (W - 2) = 0 ∨ x - min x (W - 2) = 1 := by omega
        have hy : y - min y (H - 2) = 0 ∨ y - min y (H - 2) = 1 := by omega
        rcases hx with hx | hx <;> rcases hy with hy | hy <;> rw [hx, hy] <;> decide
    have hk : ((x, y, z), padd (x, y, z) (unit ax)) = cellEdge (min x (W - 2), min y (H - 2), min z (D - 2)) e := by
      simp only [cellEdge, hhi, hlo, padd, Prod.mk.injEq]
      refine ⟨⟨?_, ?_, ?_⟩, ?_, ?_, ?_⟩ <;> omega
    refine ⟨(min x (W - 2), min y (H - 2), min z (D - 2)), ?_, e, ?_, hk⟩
    · rw [mem_cells]; simp only; omega
    · rw [(row_facts (cubeIndex_lt below _)).2.2.1]
      refine ⟨he, ?_⟩
      rw [cut_cubeIndex _ _ he]
      have : cellEdge (min x (W - 2), min y (H - 2), min z (D - 2)) e = _ := hk.symm
      simp only [cellEdge, Prod.mk.injEq] at this
      rw [this.1, this.2]
      simpa using hb

theorem isClosed_of_nodup {V : Type} [DecidableEq V] {fs : List (V × V × V)} (hn : (dirEdges fs).Nodup)
    (hrev : ∀ a b, (a, b) ∈ dirEdges fs → (b, a) ∈ dirEdges fs) : IsClosed fs := by
  intro a b
  by_cases h : (a, b) ∈ dirEdges fs
  · exact (List.count_eq_one_of_mem hn h).trans (List.count_eq_one_of_mem hn (hrev a b h)).symm
  · have h' : (b, a) ∉ dirEdges fs := fun h'' => h (hrev b a h'')
    exact (List.count_eq_zero_of_not_mem h).trans (List.count_eq_zero_of_not_mem h').symm

/-- If all values on the border of the volume are on the same side of the iso level, the surface is closed and every edge
belongs to exactly two triangles, which run through it in opposite directions. -/
theorem soup_closed {below : P → Bool} {W H D : Nat} (s : Bool)
    (hb : ∀ p : P, (∃ ax < 3, comp ax p = 0 ∨ comp ax p = size W H D ax - 1) → below p = s) :
    IsClosed (soup below W H D) ∧ ∀ a b, (a, b) ∈ dirEdges (soup below W H D) →
      (dirEdges (soup below W H D)).count (a, b) = 1 ∧ (dirEdges (soup below W H D)).count (b, a) = 1 := by
  have hrev : ∀ a b, (a, b) ∈ dirEdges (soup below W H D) → (b, a) ∈ dirEdges (soup below W H D) := by
    intro a b h
    rcases soup_reverse h with h' | ⟨ax, hax, h'⟩
    · exact h'
    · exfalso
      rw [mem_soup_edges] at h
      obtain ⟨c, hc, d, hd, rfl, rfl⟩ := h
      have m := (mem_row_of_de hd).1
      rw [(row_facts (cubeIndex_lt below c)).2.2.1] at m
      rw [cut_cubeIndex below c m.1] at m
      have h1 : below (cellEdge c d.1).1 = s := hb _ ⟨ax, hax, by rcases h' with ⟨h', _⟩ | ⟨h', _⟩ <;> simp [h'.1]⟩
      have h2 : below (cellEdge c d.1).2 = s := hb _ ⟨ax, hax, by rcases h' with ⟨h', _⟩ | ⟨h', _⟩ <;> simp [h'.2]⟩
      simp only [cellEdge] at h1 h2
      rw [h1, h2] at m
      simp at m
  have hn := soup_nodup below W H D
  exact ⟨isClosed_of_nodup hn hrev, fun a b h =>
    ⟨List.count_eq_one_of_mem hn h, List.count_eq_one_of_mem hn (hrev a b h)⟩⟩

/-- One point below the iso level in a 3 × 3 × 3 volume: a closed octahedron; with the point on the border it is open. -/
example : (soup (fun p => decide (p = (1, 1, 1))) 3 3 3).length = 8 ∧ IsClosed (soup (fun p => decide (p = (1, 1, 1))) 3 3 3)
    ∧ (soup (fun p => decide (p = (1, 1, 0))) 3 3 3).length = 4 ∧ ¬ IsClosed (soup (fun p => decide (p = (1, 1, 0))) 3 3 3) := by
  refine ⟨by decide +kernel, (soup_closed false ?_).1, by decide +kernel, fun h => ?_⟩
  · rintro p ⟨ax, hax, h⟩
    interval_cases ax <;> simp [comp, size] at h <;> simp <;> rintro rfl <;> simp at h
  · have h1 := h ((1, 1, 0), (2, 1, 0)) ((1, 1, 0), (1, 2, 0))
    have h2 : (dirEdges (soup (fun p => decide (p = (1, 1, 0))) 3 3 3)).count (((1, 1, 0), (2, 1, 0)), ((1, 1, 0), (1, 2, 0)))
      ≠ (dirEdges (soup (fun p => decide (p = (1, 1, 0))) 3 3 3)).count (((1, 1, 0), (1, 2, 0)), ((1, 1, 0), (2, 1, 0))) := by
      decide +kernel
    exact h2 h1

end P3D.Marching
