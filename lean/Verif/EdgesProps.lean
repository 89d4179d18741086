/-
C08: `edges_packed` and the tensors derived from it.
-/
import Verif.Edges
import Verif.MeshesProps
import Mathlib.Tactic.FinCases
import Mathlib.Data.Fintype.Basic

namespace P3D.Meshes

open P3D.StructUtils

/-! Specification -/

/-- The three sides of a face, side `i` being opposite corner `i`. -/
def Face.side (f : Face) (i : Fin 3) : Int × Int :=
  match i with
  | 0 => (f.2.1, f.2.2)
  | 1 => (f.2.2, f.1)
  | 2 => (f.1, f.2.1)

/-- `{p.1, p.2} = {q.1, q.2}` as unordered pairs. -/
def SameEdge (p q : Int × Int) : Prop := p = q ∨ p = (q.2, q.1)

/-- Lexicographic order on pairs. -/
def LexLt (p q : Int × Int) : Prop := p.1 < q.1 ∨ (p.1 = q.1 ∧ p.2 < q.2)

/-- All indices of a face are vertices. -/
def Face.InRange (V : Nat) (f : Face) : Prop :=
  (0 ≤ f.1 ∧ f.1 < V) ∧ (0 ≤ f.2.1 ∧ f.2.1 < V) ∧ (0 ≤ f.2.2 ∧ f.2.2 < V)

instance (V : Nat) (f : Face) : Decidable (f.InRange V) := by unfold Face.InRange; infer_instance

/-! Helper lemmas -/

theorem mem_uniqueSorted {l : List Int} {x : Int} : x ∈ uniqueSorted l ↔ x ∈ l := by
  simp [uniqueInts]

theorem uniqueSorted_lt (l : List Int) : (uniqueSorted l).Pairwise (· < ·) := by
  have h1 : (uniqueSorted l).Pairwise (· ≤ ·) := List.pairwise_insertionSort _ _
  have h2 : (uniqueSorted l).Nodup := by
    unfold uniqueSorted uniqueInts
    exact (List.perm_insertionSort _ _).nodup_iff.mpr (List.nodup_dedup l)
  have := h1.and h2
  exact this.imp (fun h => lt_of_le_of_ne h.1 h.2)

theorem maskSelect_cons {X : Type} (x : X) (l : List X) (b : Bool) (m : List Bool) :
    maskSelect (x :: l) (b :: m) = if b then x :: maskSelect l m else maskSelect l m := by
  cases b <;> simp [maskSelect]

theorem changeMask_tail (h : Nat → Int) (x : Nat) (l : List Nat)
    (hs : ((x :: l).map h).Pairwise (· ≤ ·)) :
    let R := maskSelect l (List.zipWith (fun a b => decide (a ≠ b)) (l.map h) ((x :: l).map h))
    (R.map h).Pairwise (· < ·) ∧ (∀ y, y ∈ R.map h ↔ y ∈ l.map h ∧ y ≠ h x) ∧
      (∀ i ∈ R, i ∈ l) := by
  induction l generalizing x with
  | nil => simp [maskSelect]
  | cons z l ih =>
    have hs' : ((z :: l).map h).Pairwise (· ≤ ·) := by
      simp only [List.map_cons] at hs ⊢
      exact hs.tail
    have hxz : h x ≤ h z := by
      simp only [List.map_cons, List.pairwise_cons] at hs
      exact hs.1 _ (by simp)
    have hzl : ∀ y ∈ l.map h, h z ≤ y := by
      simp only [List.map_cons, List.pairwise_cons] at hs'
      exact hs'.1
    obtain ⟨i1, i2, i3⟩ := ih z hs'
    simp only [List.map_cons, List.zipWith_cons_cons, maskSelect_cons] at i1 i2 i3 ⊢
    by_cases hne : h z = h x
    · have hd : decide (h z ≠ h x) = false := by simp [hne]
      rw [hd]
      simp only [Bool.false_eq_true, if_false]
      refine ⟨i1, fun y => ?_, fun i hi => by simp [i3 i hi]⟩
      rw [i2 y, hne, List.mem_cons]
      constructor
      · rintro ⟨a, b⟩; exact ⟨Or.inr a, b⟩
      · rintro ⟨a | a, b⟩
        · exact absurd a b
        · exact ⟨a, b⟩
    · have hd : decide (h z ≠ h x) = true := by simp [hne]
      rw [hd]
      simp only [if_true, List.map_cons, List.pairwise_cons, List.mem_cons]
      refine ⟨⟨fun y hy => ?_, i1⟩, fun y => ?_, ?_⟩
      · have := (i2 y).mp hy
        exact lt_of_le_of_ne (hzl y this.1) (Ne.symm this.2)
      · rw [i2 y]
        constructor
        · rintro (a | ⟨a, b⟩)
          · exact ⟨Or.inl a, by rw [a]; exact hne⟩
          · refine ⟨Or.inr a, ?_⟩
            have h1 := hzl y a
            have h2 : h x < h z := lt_of_le_of_ne hxz (Ne.symm hne)
            omega
        · rintro ⟨a | a, b⟩
          · exact Or.inl a
          · by_cases hy : y = h z
            · exact Or.inl hy
            · exact Or.inr ⟨a, hy⟩
      · rintro i (rfl | hi)
        · exact Or.inl rfl
        · exact Or.inr (i3 i hi)

theorem changeMask_select (h : Nat → Int) (l : List Nat) (hs : (l.map h).Pairwise (· ≤ ·)) :
    let R := maskSelect l (changeMask (l.map h))
    (R.map h).Pairwise (· < ·) ∧ (∀ y, y ∈ R.map h ↔ y ∈ l.map h) ∧ (∀ i ∈ R, i ∈ l) := by
  cases l with
  | nil => simp [maskSelect, changeMask]
  | cons x l =>
    obtain ⟨h1, h2, h3⟩ := changeMask_tail h x l hs
    simp only [List.map_cons, changeMask, maskSelect_cons, if_true] at h1 h2 h3 ⊢
    have hxl : ∀ y ∈ l.map h, h x ≤ y := by
      simp only [List.map_cons, List.pairwise_cons] at hs
      exact hs.1
    refine ⟨?_, fun y => ?_, ?_⟩
    · rw [List.pairwise_cons]
      refine ⟨fun y hy => ?_, h1⟩
      have := (h2 y).mp hy
      exact lt_of_le_of_ne (hxl y this.1) (Ne.symm this.2)
    · rw [List.mem_cons, h2 y, List.mem_cons]
      constructor
      · rintro (a | a)
        · exact Or.inl a
        · exact Or.inr a.1
      · rintro (a | a)
        · exact Or.inl a
        · by_cases hy : y = h x
          · exact Or.inl hy
          · exact Or.inr ⟨a, hy⟩
    · intro i hi
      rcases List.mem_cons.mp hi with rfl | hi
      · simp
      · simp [h3 i hi]

/-- Selecting the first representative of each run of the sorted hashes gives the unique hashes. -/
theorem select_eq_unique (hl : List Int) (idx : List Nat) (hidx : IsSortIdx hl idx) :
    let R := maskSelect idx (changeMask (idx.map (fun i => hl.getD i 0)))
    R.map (fun i => hl.getD i 0) = uniqueSorted hl ∧ ∀ i ∈ R, i < hl.length := by
  obtain ⟨h1, h2, h3⟩ := changeMask_select (fun i => hl.getD i 0) idx hidx.2
  refine ⟨?_, fun i hi => ?_⟩
  · apply List.Perm.eq_of_pairwise (le := (· < ·)) _ h1 (uniqueSorted_lt hl)
    · rw [List.perm_ext_iff_of_nodup (h1.imp (fun h => ne_of_lt h))
        ((uniqueSorted_lt hl).imp (fun h => ne_of_lt h))]
      intro y
      rw [h2 y, mem_uniqueSorted]
      have : (idx.map (fun i => hl.getD i 0)).Perm hl := by
        have e : (List.range hl.length).map (fun i => hl.getD i 0) = hl := by
          apply List.ext_getElem
          · simp
          · intro k hk1 hk2; simp [hk2]
        exact (hidx.1.map _).trans (by rw [e])
      exact this.mem_iff
    · intro a b _ _ hab hba; omega
  · have := hidx.1.mem_iff.mp (h3 i hi)
    simpa using this

theorem stableSortIdx_ok (h : List Int) : IsSortIdx h (stableSortIdx h) := by
  have ht : Std.Total (fun i j : Nat => h.getD i 0 ≤ h.getD j 0) := ⟨fun a b => by omega⟩
  have htr : IsTrans Nat (fun i j : Nat => h.getD i 0 ≤ h.getD j 0) := ⟨fun a b c => by omega⟩
  refine ⟨List.perm_insertionSort _ _, ?_⟩
  rw [List.pairwise_map]
  exact List.pairwise_insertionSort _ _

theorem hash_decode {V : Nat} {a b : Int} (hb : 0 ≤ b) (hbV : b < V) :
    edgeHash V (a, b) / V = a ∧ edgeHash V (a, b) % V = b := by
  have hV : (0 : Int) < V := by omega
  unfold edgeHash
  simp only
  constructor
  · rw [Int.add_comm, Int.add_mul_ediv_left _ _ (by omega), Int.ediv_eq_zero_of_lt hb hbV]; simp
  · rw [Int.add_comm, Int.add_mul_emod_self_left, Int.emod_eq_of_lt hb hbV]

theorem hash_lt {V : Nat} {a b c d : Int} (hb : 0 ≤ b) (hbV : b < V) (hd : 0 ≤ d) (hdV : d < V) :
    edgeHash V (a, b) < edgeHash V (c, d) ↔ LexLt (a, b) (c, d) := by
  unfold edgeHash LexLt
  simp only
  constructor
  · intro h
    rcases lt_trichotomy a c with h1 | h1 | h1
    · exact Or.inl h1
    · subst h1; right; exact ⟨rfl, by omega⟩
    · exfalso
      have : (V : Int) * (c + 1) ≤ V * a := Int.mul_le_mul_of_nonneg_left (by omega) (by omega)
      rw [Int.mul_add] at this
      omega
  · rintro (h | ⟨rfl, h⟩)
    · have : (V : Int) * (a + 1) ≤ V * c := Int.mul_le_mul_of_nonneg_left (by omega) (by omega)
      rw [Int.mul_add] at this
      omega
    · omega

theorem sortPair_le (e : Int × Int) : (sortPair e).1 ≤ (sortPair e).2 := by
  unfold sortPair; split
  · assumption
  · simp only; omega

theorem sortPair_same (e : Int × Int) : SameEdge (sortPair e) e := by
  unfold sortPair SameEdge; split <;> simp

theorem sortPair_eq_of_same {p e : Int × Int} (h : SameEdge p e) (hp : p.1 ≤ p.2) :
    p = sortPair e := by
  obtain ⟨p1, p2⟩ := p
  obtain ⟨e1, e2⟩ := e
  unfold SameEdge at h
  simp only [Prod.mk.injEq] at h hp
  unfold sortPair
  split
  · simp only at *
    rcases h with h | h
    · simp [h]
    · obtain ⟨h1, h2⟩ := h
      simp only [Prod.mk.injEq]; omega
  · simp only at *
    rcases h with h | h
    · simp only [Prod.mk.injEq]; omega
    · simp [h]

theorem mem_rawEdges {faces : List Face} {e : Int × Int} :
    e ∈ rawEdges faces ↔ ∃ f ∈ faces, ∃ i, e = Face.side f i := by
  simp only [rawEdges, List.mem_append, List.mem_map]
  constructor
  · rintro ((⟨f, hf, rfl⟩ | ⟨f, hf, rfl⟩) | ⟨f, hf, rfl⟩)
    · exact ⟨f, hf, 0, rfl⟩
    · exact ⟨f, hf, 1, rfl⟩
    · exact ⟨f, hf, 2, rfl⟩
  · rintro ⟨f, hf, i, rfl⟩
    fin_cases i
    · exact Or.inl (Or.inl ⟨f, hf, rfl⟩)
    · exact Or.inl (Or.inr ⟨f, hf, rfl⟩)
    · exact Or.inr ⟨f, hf, rfl⟩

theorem side_range {V : Nat} {f : Face} (h : f.InRange V) (i : Fin 3) :
    (0 ≤ (f.side i).1 ∧ (f.side i).1 < V) ∧ (0 ≤ (f.side i).2 ∧ (f.side i).2 < V) := by
  obtain ⟨h0, h1, h2⟩ := h
  fin_cases i <;> simp [Face.side] <;> omega

theorem sortPair_range {V : Nat} {e : Int × Int}
    (h : (0 ≤ e.1 ∧ e.1 < V) ∧ (0 ≤ e.2 ∧ e.2 < V)) :
    (0 ≤ (sortPair e).1 ∧ (sortPair e).1 < V) ∧ (0 ≤ (sortPair e).2 ∧ (sortPair e).2 < V) := by
  unfold sortPair; split
  · exact h
  · exact ⟨h.2, h.1⟩

/-- Hashes of the sides. -/
def sideHashes (V : Nat) (faces : List Face) : List Int :=
  (rawEdges faces).map (fun e => edgeHash V (sortPair e))

theorem length_sideHashes (V : Nat) (faces : List Face) :
    (sideHashes V faces).length = 3 * faces.length := by
  simp [sideHashes, rawEdges]; omega

theorem getElem_rawEdges (faces : List Face) (f : Nat) (hf : f < faces.length) (i : Fin 3) :
    (rawEdges faces)[i.val * faces.length + f]? = some (Face.side faces[f] i) := by
  have h3 : i.val = 0 ∨ i.val = 1 ∨ i.val = 2 := by omega
  unfold rawEdges
  rcases h3 with h | h | h
  · have : i = 0 := Fin.ext h
    subst this
    rw [List.append_assoc, List.getElem?_append_left (by simp; omega)]
    simp [hf, Face.side]
  · have : i = 1 := Fin.ext h
    subst this
    rw [List.getElem?_append_left (by simp; omega), List.getElem?_append_right (by simp)]
    simp [hf, Face.side]
  · have : i = 2 := Fin.ext h
    subst this
    rw [List.getElem?_append_right (by simp; omega)]
    have e : 2 * faces.length + f - (faces.length + faces.length) = f := by omega
    simp [e, hf, Face.side]

theorem getElem_sideHashes (V : Nat) (faces : List Face) (f : Nat) (hf : f < faces.length)
    (i : Fin 3) :
    (sideHashes V faces)[i.val * faces.length + f]? =
      some (edgeHash V (sortPair (Face.side faces[f] i))) := by
  rw [sideHashes, List.getElem?_map, getElem_rawEdges faces f hf i]; rfl

/-! Properties -/

section props
variable {V : Nat} {faces : List Face} {idx : List Nat}

theorem mem_sideHashes {x : Int} :
    x ∈ sideHashes V faces ↔ ∃ f ∈ faces, ∃ i, x = edgeHash V (sortPair (Face.side f i)) := by
  simp only [sideHashes, List.mem_map, mem_rawEdges]
  constructor
  · rintro ⟨e, ⟨f, hf, i, rfl⟩, rfl⟩; exact ⟨f, hf, i, rfl⟩
  · rintro ⟨f, hf, i, rfl⟩; exact ⟨_, ⟨f, hf, i, rfl⟩, rfl⟩

theorem decode_side (hr : ∀ f ∈ faces, f.InRange V) {f : Face} (hf : f ∈ faces) (i : Fin 3) :
    (edgeHash V (sortPair (f.side i)) / (V : Int), edgeHash V (sortPair (f.side i)) % (V : Int))
      = sortPair (f.side i) := by
  have h := sortPair_range (side_range (hr f hf) i)
  obtain ⟨h1, h2⟩ := hash_decode (a := (sortPair (f.side i)).1) h.2.1 h.2.2
  exact Prod.ext h1 h2

/-- **C08a.** The rows of `edges_packed` are exactly the undirected sides of the faces, written with
the smaller index first. -/
theorem edges_mem (hr : ∀ f ∈ faces, f.InRange V) (N : Nat) (f2m : List Nat) (p : Int × Int) :
    p ∈ (computeEdges idx N V faces f2m).edges ↔
      p.1 ≤ p.2 ∧ ∃ f ∈ faces, ∃ i, SameEdge p (f.side i) := by
  show p ∈ (uniqueSorted (sideHashes V faces)).map _ ↔ _
  simp only [List.mem_map, mem_uniqueSorted]
  constructor
  · rintro ⟨x, hx, rfl⟩
    obtain ⟨f, hf, i, rfl⟩ := mem_sideHashes.mp hx
    rw [decode_side hr hf i]
    exact ⟨sortPair_le _, f, hf, i, sortPair_same _⟩
  · rintro ⟨hle, f, hf, i, hs⟩
    refine ⟨edgeHash V (sortPair (f.side i)), mem_sideHashes.mpr ⟨f, hf, i, rfl⟩, ?_⟩
    rw [decode_side hr hf i, sortPair_eq_of_same hs hle]

/-- **C08b.** The rows are strictly increasing lexicographically: no edge is listed twice. -/
theorem edges_strict (hr : ∀ f ∈ faces, f.InRange V) (N : Nat) (f2m : List Nat) :
    (computeEdges idx N V faces f2m).edges.Pairwise LexLt := by
  show ((uniqueSorted (sideHashes V faces)).map _).Pairwise _
  rw [List.pairwise_map]
  refine (uniqueSorted_lt _).imp_of_mem ?_
  intro x y hx hy hlt
  obtain ⟨f, hf, i, rfl⟩ := mem_sideHashes.mp (mem_uniqueSorted.mp hx)
  obtain ⟨g, hg, j, rfl⟩ := mem_sideHashes.mp (mem_uniqueSorted.mp hy)
  rw [decode_side hr hf i, decode_side hr hg j]
  have h1 := sortPair_range (side_range (hr f hf) i)
  have h2 := sortPair_range (side_range (hr g hg) j)
  exact (hash_lt h1.2.1 h1.2.2 h2.2.1 h2.2.2).mp hlt

/-- **C08c.** `faces_packed_to_edges_packed[f, i]` is the row of the side of face `f` opposite its
`i`-th corner. -/
theorem faceToEdge_spec (hr : ∀ f ∈ faces, f.InRange V) (N : Nat) (f2m : List Nat)
    (f : Nat) (hf : f < faces.length) :
    ∃ e0 e1 e2, (computeEdges idx N V faces f2m).faceToEdge[f]? = some (e0, e1, e2) ∧
      (∃ p, (computeEdges idx N V faces f2m).edges[e0]? = some p ∧ SameEdge p (faces[f].side 0)) ∧
      (∃ p, (computeEdges idx N V faces f2m).edges[e1]? = some p ∧ SameEdge p (faces[f].side 1)) ∧
      (∃ p, (computeEdges idx N V faces f2m).edges[e2]? = some p ∧ SameEdge p (faces[f].side 2)) := by
  have key : ∀ i : Fin 3, ∃ p,
      (computeEdges idx N V faces f2m).edges[
        ((sideHashes V faces).map (fun x => (uniqueSorted (sideHashes V faces)).idxOf x)).getD
          (i.val * faces.length + f) 0]? = some p ∧ SameEdge p (faces[f].side i) := by
    intro i
    have h1 := getElem_sideHashes V faces f hf i
    rw [List.getD_eq_getElem?_getD, List.getElem?_map, h1]
    simp only [Option.map_some, Option.getD_some]
    set x := edgeHash V (sortPair (faces[f].side i)) with hx
    have hmem : x ∈ uniqueSorted (sideHashes V faces) :=
      mem_uniqueSorted.mpr (List.mem_of_getElem? h1)
    refine ⟨sortPair (faces[f].side i), ?_, sortPair_same _⟩
    show ((uniqueSorted (sideHashes V faces)).map _)[_]? = _
    rw [List.getElem?_map, List.getElem?_idxOf hmem]
    simp only [Option.map_some]
    rw [hx, decode_side hr (List.getElem_mem hf) i]
  set g : Nat → Nat := fun k =>
    ((sideHashes V faces).map (fun x => (uniqueSorted (sideHashes V faces)).idxOf x)).getD k 0 with hg
  refine ⟨g f, g (faces.length + f), g (2 * faces.length + f), ?_, ?_, ?_, ?_⟩
  · show ((List.range faces.length).map _)[f]? = _
    rw [List.getElem?_map, List.getElem?_range hf]
    simp only [Option.map_some]
    rfl
  · have := key 0; simpa only [hg, Fin.val_zero, Nat.zero_mul, Nat.zero_add] using this
  · have := key 1; simpa only [hg, Fin.val_one, Nat.one_mul] using this
  · have := key 2; simpa only [hg, Fin.val_two] using this

/-- A face belongs to mesh `m` only if its corners lie in that mesh's block of packed vertices:
`own v` is the mesh of vertex `v`. -/
def OwnedBy (own : Int → Nat) (faces : List Face) (f2m : List Nat) : Prop :=
  ∀ (f : Nat) (hf : f < faces.length), ∀ i, own (faces[f].side i).1 = f2m.getD f 0 ∧
    own (faces[f].side i).2 = f2m.getD f 0

theorem getD_triple (f2m : List Nat) (k : Nat) (f : Nat) (hf : f < f2m.length) (hk : k < 3) :
    (f2m ++ f2m ++ f2m).getD (k * f2m.length + f) 0 = f2m.getD f 0 := by
  simp only [List.getD_eq_getElem?_getD]
  have h3 : k = 0 ∨ k = 1 ∨ k = 2 := by omega
  rcases h3 with rfl | rfl | rfl
  · rw [List.append_assoc, List.getElem?_append_left (by omega)]; simp
  · rw [List.getElem?_append_left (by simp; omega), List.getElem?_append_right (by omega)]
    congr 2; omega
  · rw [List.getElem?_append_right (by simp; omega)]
    congr 2; simp; omega

/-- **C08d.** `edges_packed_to_mesh_idx` is the mesh owning the end points, whichever order
`torch.sort` puts equal keys in. -/
theorem toMesh_spec (hr : ∀ f ∈ faces, f.InRange V) (N : Nat) (f2m : List Nat)
    (hlen : f2m.length = faces.length) (own : Int → Nat) (hown : OwnedBy own faces f2m)
    (hidx : IsSortIdx (sideHashes V faces) idx) :
    (computeEdges idx N V faces f2m).toMesh =
      (computeEdges idx N V faces f2m).edges.map (fun p => own p.1) := by
  obtain ⟨h1, h2⟩ := select_eq_unique _ _ hidx
  show (maskSelect idx (changeMask (idx.map (fun i => (sideHashes V faces).getD i 0)))).map _ =
    ((uniqueSorted (sideHashes V faces)).map _).map _
  rw [← h1]
  simp only [List.map_map]
  apply List.map_congr_left
  intro k hk
  have hk' : k < 3 * faces.length := by
    have := h2 k hk; rwa [length_sideHashes] at this
  set F := faces.length with hF
  have hFpos : 0 < F := by omega
  have hkd : k = (k / F) * F + k % F := by
    rw [Nat.mul_comm]; exact (Nat.div_add_mod k F).symm
  have hq : k / F < 3 := by
    rw [Nat.div_lt_iff_lt_mul hFpos]; omega
  have hm : k % F < F := Nat.mod_lt _ hFpos
  have hh := getElem_sideHashes V faces (k % F) hm ⟨k / F, hq⟩
  simp only [← hF] at hh
  rw [← hkd] at hh
  have hgd : (sideHashes V faces).getD k 0 =
      edgeHash V (sortPair (Face.side faces[k % F] ⟨k / F, hq⟩)) := by
    rw [List.getD_eq_getElem?_getD, hh]; rfl
  simp only [Function.comp]
  rw [hgd]
  have hd := decode_side hr (List.getElem_mem hm) ⟨k / F, hq⟩
  have hd1 := congrArg Prod.fst hd
  simp only at hd1
  rw [hd1]
  have ho := hown (k % F) hm ⟨k / F, hq⟩
  have htr := getD_triple f2m (k / F) (k % F) (by omega) hq
  rw [hlen, ← hkd] at htr
  rw [htr]
  unfold sortPair
  split
  · exact ho.1.symm
  · exact ho.2.symm

/-- Positions in a non-decreasing list. -/
theorem sorted_position {t : List Nat} (hs : t.Pairwise (· ≤ ·)) (m i : Nat) (hi : i < t.length) :
    t.countP (fun x => decide (x < m)) ≤ i ↔ m ≤ t[i] := by
  induction t generalizing i with
  | nil => simp at hi
  | cons x t ih =>
    rw [List.pairwise_cons] at hs
    rw [List.countP_cons]
    cases i with
    | zero =>
      simp only [List.getElem_cons_zero]
      by_cases hx : x < m
      · simp [hx]
      · have : t.countP (fun y => decide (y < m)) = 0 := by
          rw [List.countP_eq_zero]
          intro y hy
          have := hs.1 y hy
          simp; omega
        simp [hx, this]; omega
    | succ i =>
      have hi' : i < t.length := by simpa using hi
      simp only [List.getElem_cons_succ]
      rw [← ih hs.2 i hi']
      by_cases hx : x < m
      · simp [hx]
      · have : t.countP (fun y => decide (y < m)) = 0 := by
          rw [List.countP_eq_zero]
          intro y hy
          have := hs.1 y hy
          simp; omega
        simp [hx, this]

theorem countP_lt_succ (t : List Nat) (m : Nat) :
    t.countP (fun x => decide (x < m + 1)) = t.countP (fun x => decide (x < m)) + t.count m := by
  induction t with
  | nil => simp
  | cons x t ih =>
    simp only [List.countP_cons, List.count_cons, ih]
    rcases lt_trichotomy x m with h | h | h
    · simp [h, show x < m + 1 by omega, show x ≠ m by omega]; omega
    · simp [h]; omega
    · simp [show ¬ x < m by omega, show ¬ x < m + 1 by omega, show x ≠ m by omega]

theorem sum_counts (t : List Nat) (m : Nat) :
    ((List.range m).map (fun n => t.count n)).sum = t.countP (fun x => decide (x < m)) := by
  induction m with
  | zero => simp
  | succ m ih =>
    rw [List.range_succ, List.map_append, List.sum_append, ih, countP_lt_succ]
    simp

/-- Prefix sums as computed by `cumsum`. -/
theorem cumsum_getElem (l : List Nat) (m : Nat) (hm : m < l.length) :
    (0 :: cumsumFrom 0 l.dropLast)[m]? = some (l.take m).sum := by
  have gen : ∀ (l : List Nat) (acc k : Nat), k < l.length →
      (cumsumFrom acc l)[k]? = some (acc + (l.take (k + 1)).sum) := by
    intro l
    induction l with
    | nil => intro acc k hk; simp at hk
    | cons x l ih =>
      intro acc k hk
      cases k with
      | zero => simp [cumsumFrom]
      | succ k =>
        have := ih (acc + x) k (by simpa using hk)
        simp only [cumsumFrom, List.getElem?_cons_succ, this, List.take_succ_cons, List.sum_cons]
        congr 1; omega
  cases m with
  | zero => simp
  | succ m =>
    rw [List.getElem?_cons_succ, gen _ _ _ (by simp; omega), List.dropLast_eq_take,
      List.take_take, Nat.min_eq_left (by omega)]
    simp

/-- **C08e.** If the blocks of packed vertices follow the order of the meshes (`own` monotone), the
edges of mesh `m` are the rows `first[m] ≤ r < first[m] + num[m]`. -/
theorem edges_of_mesh (hr : ∀ f ∈ faces, f.InRange V) (N : Nat) (f2m : List Nat)
    (hlen : f2m.length = faces.length) (own : Int → Nat) (hown : OwnedBy own faces f2m)
    (hmono : ∀ v w, v ≤ w → own v ≤ own w) (hidx : IsSortIdx (sideHashes V faces) idx)
    (m : Nat) (hm : m < N) :
    ∃ first num, (computeEdges idx N V faces f2m).firstEdge[m]? = some first ∧
      (computeEdges idx N V faces f2m).numEdges[m]? = some num ∧
      ∀ r p, (computeEdges idx N V faces f2m).edges[r]? = some p →
        ((first ≤ r ∧ r < first + num) ↔ own p.1 = m) := by
  set E := computeEdges idx N V faces f2m with hE
  have htm : E.toMesh = E.edges.map (fun p => own p.1) := toMesh_spec hr N f2m hlen own hown hidx
  have hsorted : E.toMesh.Pairwise (· ≤ ·) := by
    rw [htm, List.pairwise_map]
    refine (edges_strict hr N f2m).imp ?_
    rintro ⟨p1, p2⟩ ⟨q1, q2⟩ h
    rcases h with h | h
    · exact hmono _ _ (le_of_lt h)
    · exact hmono _ _ (le_of_eq h.1)
  have hnum : E.numEdges = (List.range N).map (fun n => E.toMesh.count n) := rfl
  have hfst : E.firstEdge = 0 :: cumsumFrom 0 E.numEdges.dropLast := rfl
  have hNl : E.numEdges.length = N := by rw [hnum]; simp
  refine ⟨E.toMesh.countP (fun x => decide (x < m)), E.toMesh.count m, ?_, ?_, ?_⟩
  · rw [hfst, cumsum_getElem _ m (by omega), hnum,
      ← List.map_take, List.take_range, Nat.min_eq_left (by omega), sum_counts]
  · rw [hnum, List.getElem?_map, List.getElem?_range hm]; rfl
  · intro r p hp
    have hrl : r < E.edges.length := (List.getElem?_eq_some_iff.mp hp).1
    have hrl' : r < E.toMesh.length := by rw [htm]; simpa using hrl
    have hval : E.toMesh[r] = own p.1 := by
      have h1 : E.toMesh[r]? = some (own p.1) := by rw [htm, List.getElem?_map, hp]; rfl
      exact (List.getElem?_eq_some_iff.mp h1).2
    rw [← countP_lt_succ, sorted_position hsorted m r hrl', Nat.lt_iff_add_one_le]
    have := sorted_position hsorted (m + 1) r hrl'
    rw [hval] at this ⊢
    constructor
    · rintro ⟨h1, h2⟩
      by_contra hc
      have : m + 1 ≤ own p.1 := by omega
      have := (sorted_position hsorted (m + 1) r hrl').mpr (by rw [hval]; exact this)
      omega
    · intro h
      refine ⟨by omega, ?_⟩
      by_contra hc
      have := this.mp (by omega)
      omega

end props

/-! Application to a batch -/

section batch
variable {P : Type}

/-- Mesh of a packed vertex: how many blocks end at or before it. -/
def owner : List Nat → Int → Nat
  | [], _ => 0
  | n :: ns, v => if v < n then 0 else 1 + owner ns (v - n)

theorem owner_mono (l : List Nat) : ∀ v w : Int, v ≤ w → owner l v ≤ owner l w := by
  induction l with
  | nil => intro v w _; simp [owner]
  | cons n l ih =>
    intro v w h
    simp only [owner]
    split
    · omega
    · rw [if_neg (by omega)]
      have := ih (v - n) (w - n) (by omega)
      omega

theorem owner_block (l : List Nat) (m : Nat) (hm : m < l.length) (v : Int) (hv : 0 ≤ v)
    (hvm : v < l[m]) : owner l (v + (l.take m).sum) = m := by
  induction l generalizing m with
  | nil => simp at hm
  | cons n l ih =>
    cases m with
    | zero => simp at hvm; simp [owner, hvm]
    | succ m =>
      have e0 : (((List.take (m + 1) (n :: l)).sum : Nat) : Int) = n + ((l.take m).sum : Nat) := by
        simp
      rw [e0, owner, if_neg (by omega)]
      have := ih m (by simpa using hm) (by simpa using hvm)
      have e : v + (n + ((l.take m).sum : Nat) : Int) - n = v + ((l.take m).sum : Nat) := by
        omega
      rw [e, this]; omega

/-- Faces refer to vertices of their own mesh. -/
def Abs.FacesOK (a : Abs P) : Prop :=
  ∀ (m : Nat) (h1 : m < a.verts.length) (h2 : m < a.faces.length), ∀ f ∈ a.faces[m],
    f.InRange a.verts[m].length

theorem facesPackedAux_getElem (o : Nat) (vs : List (List P)) (fs : List (List Face))
    (hlen : fs.length = vs.length) (k : Nat) (g : Face)
    (hk : (Abs.facesPackedAux o vs fs)[k]? = some g) :
    ∃ m, ∃ (h : m < fs.length), (Abs.meshIdx (fs.map List.length))[k]? = some m ∧
      ∃ f ∈ fs[m], g = f.shift (o + ((vs.take m).map List.length).sum) := by
  have gen : ∀ (j : Nat) (o : Nat) (vs : List (List P)) (fs : List (List Face)), 
      fs.length = vs.length → ∀ k : Nat, (Abs.facesPackedAux o vs fs)[k]? = some g →
      ∃ m, ∃ (h : m < fs.length),
        ((((fs.map List.length).zipIdx j).map (fun p => List.replicate p.1 p.2)).flatten)[k]?
          = some (j + m) ∧ ∃ f ∈ fs[m], g = f.shift (o + ((vs.take m).map List.length).sum) := by
    intro j o vs
    induction vs generalizing j o with
    | nil =>
      intro fs hl k hk
      have : fs = [] := List.eq_nil_of_length_eq_zero (by simpa using hl)
      subst this
      simp [Abs.facesPackedAux] at hk
    | cons v vs ih =>
      intro fs hl k hk
      cases fs with
      | nil => simp at hl
      | cons f fs =>
        simp only [Abs.facesPackedAux] at hk
        by_cases hkf : k < f.length
        · rw [List.getElem?_append_left (by simpa using hkf), List.getElem?_map,
            List.getElem?_eq_getElem hkf] at hk
          refine ⟨0, by simp, ?_, f[k], by simp, ?_⟩
          · simp only [List.map_cons, List.zipIdx_cons, List.flatten_cons]
            rw [List.getElem?_append_left (by simpa using hkf)]
            simp [hkf]
          · simpa using hk.symm
        · rw [List.getElem?_append_right (by simpa using hkf)] at hk
          obtain ⟨m, hm, h1, t, ht, h2⟩ := ih (j + 1) _ fs (by simpa using hl) _ hk
          refine ⟨m + 1, by simpa using hm, ?_, t, by simpa using ht, ?_⟩
          · simp only [List.map_cons, List.zipIdx_cons, List.flatten_cons]
            rw [List.getElem?_append_right (by simpa using hkf)]
            simp only [List.length_replicate, List.length_map] at h1 ⊢
            rw [h1]; congr 1; omega
          · rw [h2]; congr 1
            simp only [List.take_succ_cons, List.map_cons, List.sum_cons]; omega
  obtain ⟨m, hm, h1, h2⟩ := gen 0 o vs fs hlen k hk
  exact ⟨m, hm, by simpa [Abs.meshIdx] using h1, h2⟩

theorem facesPackedAux_mem (o : Nat) (vs : List (List P)) (fs : List (List Face))
    (hlen : fs.length = vs.length) (m : Nat) (h : m < fs.length) (f : Face) (hf : f ∈ fs[m]) :
    f.shift (o + ((vs.take m).map List.length).sum) ∈ Abs.facesPackedAux o vs fs := by
  induction vs generalizing o fs m with
  | nil => simp at hlen; subst hlen; simp at h
  | cons v vs ih =>
    cases fs with
    | nil => simp at h
    | cons g fs =>
      simp only [Abs.facesPackedAux, List.mem_append, List.mem_map]
      cases m with
      | zero => left; exact ⟨f, by simpa using hf, by simp⟩
      | succ m =>
        right
        have := ih (o + v.length) fs (by simpa using hlen) m (by simpa using h) (by simpa using hf)
        have e : o + ((List.take (m + 1) (v :: vs)).map List.length).sum
            = o + v.length + ((vs.take m).map List.length).sum := by
          simp only [List.take_succ_cons, List.map_cons, List.sum_cons]; omega
        rw [e]; exact this

theorem length_facesPacked (o : Nat) (vs : List (List P)) (fs : List (List Face))
    (hlen : fs.length = vs.length) :
    (Abs.facesPackedAux o vs fs).length = (fs.map List.length).sum := by
  induction vs generalizing o fs with
  | nil => simp at hlen; subst hlen; rfl
  | cons v vs ih =>
    cases fs with
    | nil => simp at hlen
    | cons g fs => simp [Abs.facesPackedAux, ih _ fs (by simpa using hlen)]

theorem length_meshIdx (l : List Nat) : (Abs.meshIdx l).length = l.sum := by
  rw [Abs.meshIdx, List.length_flatten, List.map_map]
  congr 1
  apply List.ext_getElem
  · simp
  · intro i h1 h2; simp

theorem shift_inRange {f : Face} {n o V : Nat} (h : f.InRange n) (hV : o + n ≤ V) :
    (f.shift o).InRange V := by
  obtain ⟨h0, h1, h2⟩ := h
  simp only [Face.InRange, Face.shift]; omega

theorem block_le (l : List Nat) (m : Nat) (hm : m < l.length) : (l.take m).sum + l[m] ≤ l.sum := by
  have h1 : (l.take (m + 1)).sum + (l.drop (m + 1)).sum = l.sum := by
    rw [← List.sum_append, List.take_append_drop]
  rw [List.take_succ_eq_append_getElem hm, List.sum_append] at h1
  simp at h1; omega

/-- The packed faces of a batch whose faces are in range satisfy the hypotheses above. -/
theorem facesPacked_ok (a : Abs P) (hlen : a.faces.length = a.verts.length) (hok : a.FacesOK) :
    (∀ f ∈ a.facesPacked, f.InRange a.vertsPacked.length) ∧
    OwnedBy (owner (a.verts.map List.length)) a.facesPacked
      (Abs.meshIdx (a.faces.map List.length)) ∧
    (Abs.meshIdx (a.faces.map List.length)).length = a.facesPacked.length := by
  have hV : a.vertsPacked.length = (a.verts.map List.length).sum := by
    simp [Abs.vertsPacked, List.length_flatten]
  have key : ∀ (k : Nat) (g : Face), a.facesPacked[k]? = some g →
      g.InRange a.vertsPacked.length ∧ ∀ i,
        owner (a.verts.map List.length) (g.side i).1
          = (Abs.meshIdx (a.faces.map List.length)).getD k 0 ∧
        owner (a.verts.map List.length) (g.side i).2
          = (Abs.meshIdx (a.faces.map List.length)).getD k 0 := by
    intro k g hk
    obtain ⟨m, hm, h1, f, hf, rfl⟩ := facesPackedAux_getElem 0 a.verts a.faces hlen k g hk
    have hmv : m < a.verts.length := by omega
    have hfr := hok m hmv hm f hf
    have hml : m < (a.verts.map List.length).length := by simpa using hmv
    have hb := block_le (a.verts.map List.length) m hml
    simp only [List.getElem_map, ← List.map_take] at hb
    refine ⟨shift_inRange hfr (by rw [hV]; omega), fun i => ?_⟩
    rw [List.getD_eq_getElem?_getD, h1]
    simp only [Option.getD_some, Nat.zero_add]
    have ob : ∀ v : Int, 0 ≤ v → v < a.verts[m].length →
        owner (a.verts.map List.length) (v + ((a.verts.take m).map List.length).sum) = m := by
      intro v h0 h1
      have := owner_block (a.verts.map List.length) m hml v h0 (by simpa using h1)
      rwa [← List.map_take] at this
    obtain ⟨r0, r1, r2⟩ := hfr
    fin_cases i
    · exact ⟨ob _ r1.1 r1.2, ob _ r2.1 r2.2⟩
    · exact ⟨ob _ r2.1 r2.2, ob _ r0.1 r0.2⟩
    · exact ⟨ob _ r0.1 r0.2, ob _ r1.1 r1.2⟩
  refine ⟨?_, ?_, ?_⟩
  · intro f hf
    obtain ⟨k, hk⟩ := List.getElem?_of_mem hf
    exact (key k f hk).1
  · intro k hk
    exact (key k _ (List.getElem?_eq_getElem hk)).2
  · rw [length_meshIdx]
    exact (length_facesPacked 0 a.verts a.faces hlen).symm

/-- **C08, for a batch.** With faces in range, the rows `first[m] ≤ r < first[m] + num[m]` of
`edges_packed` are exactly the undirected sides of the faces of mesh `m` (vertex numbers shifted by
the number of vertices of the previous meshes), each listed once. -/
theorem batch_edges (a : Abs P) (hlen : a.faces.length = a.verts.length) (hok : a.FacesOK)
    (idx : List Nat)
    (hidx : IsSortIdx (sideHashes a.vertsPacked.length a.facesPacked) idx)
    (m : Nat) (hm : m < a.verts.length) :
    let E := computeEdges idx a.verts.length a.vertsPacked.length a.facesPacked
      (Abs.meshIdx (a.faces.map List.length))
    ∃ first num, E.firstEdge[m]? = some first ∧ E.numEdges[m]? = some num ∧
      ∀ p : Int × Int, (∃ r, first ≤ r ∧ r < first + num ∧ E.edges[r]? = some p) ↔
        p.1 ≤ p.2 ∧ ∃ f ∈ a.faces[m]'(by omega), ∃ i, SameEdge p ((f.shift (a.vOff m)).side i) := by
  intro E
  obtain ⟨hr, hown, hl⟩ := facesPacked_ok a hlen hok
  obtain ⟨first, num, h1, h2, h3⟩ := edges_of_mesh hr a.verts.length
    (Abs.meshIdx (a.faces.map List.length)) hl _ hown (owner_mono _) hidx m hm
  refine ⟨first, num, h1, h2, fun p => ?_⟩
  have hml : m < (a.verts.map List.length).length := by simpa using hm
  have ob : ∀ v : Int, 0 ≤ v → v < a.verts[m].length →
      owner (a.verts.map List.length) (v + a.vOff m) = m := by
    intro v h0 h1
    have := owner_block (a.verts.map List.length) m hml v h0 (by simpa using h1)
    rwa [← List.map_take] at this
  constructor
  · rintro ⟨r, ha, hb, hp⟩
    have ho := (h3 r p hp).mp ⟨ha, hb⟩
    obtain ⟨hle, g, hg, i, hs⟩ := (edges_mem hr a.verts.length
      (Abs.meshIdx (a.faces.map List.length)) p).mp (List.mem_of_getElem? hp)
    obtain ⟨k, hk⟩ := List.getElem?_of_mem hg
    obtain ⟨m', hm', h1', f, hf, rfl⟩ := facesPackedAux_getElem 0 a.verts a.faces hlen k g hk
    have hkl : k < a.facesPacked.length := (List.getElem?_eq_some_iff.mp hk).1
    have hke := (List.getElem?_eq_some_iff.mp hk).2
    have ow := hown k hkl i
    rw [hke, List.getD_eq_getElem?_getD, h1'] at ow
    simp only [Option.getD_some] at ow
    have : m' = m := by
      rcases hs with hs | hs
      · rw [hs, ow.1] at ho; exact ho
      · rw [hs] at ho; simp only at ho; rw [ow.2] at ho; exact ho
    subst this
    exact ⟨hle, f, hf, i, by simpa [Abs.vOff] using hs⟩
  · rintro ⟨hle, f, hf, i, hs⟩
    have hmem : f.shift (a.vOff m) ∈ a.facesPacked := by
      have := facesPackedAux_mem 0 a.verts a.faces hlen m (by omega) f hf
      rw [Nat.zero_add] at this
      exact this
    have hp := (edges_mem (idx := idx) hr a.verts.length
      (Abs.meshIdx (a.faces.map List.length)) p).mpr ⟨hle, _, hmem, i, hs⟩
    obtain ⟨r, hrp⟩ := List.getElem?_of_mem hp
    have ho : owner (a.verts.map List.length) p.1 = m := by
      obtain ⟨r0, r1, r2⟩ := hok m hm (by omega) f hf
      rcases hs with hs | hs <;> rw [hs] <;> fin_cases i
      · exact ob _ r1.1 r1.2
      · exact ob _ r2.1 r2.2
      · exact ob _ r0.1 r0.2
      · exact ob _ r2.1 r2.2
      · exact ob _ r0.1 r0.2
      · exact ob _ r1.1 r1.2
    obtain ⟨ha, hb⟩ := (h3 r p hrp).mpr ho
    exact ⟨r, ha, hb, hrp⟩

/-- The hypotheses are met: two triangles sharing a side, and a second mesh. -/
example : (Abs.ofLists (0 : Int) [[1, 2, 3, 4], [5, 6, 7]] [[(0, 1, 2), (2, 1, 3)], [(0, 2, 1)]]).FacesOK ∧
    (computeEdges (stableSortIdx (sideHashes 7 [(0, 1, 2), (2, 1, 3), (4, 6, 5)])) 2 7
      [(0, 1, 2), (2, 1, 3), (4, 6, 5)] [0, 0, 1]) =
      { edges := [(0, 1), (0, 2), (1, 2), (1, 3), (2, 3), (4, 5), (4, 6), (5, 6)]
        toMesh := [0, 0, 0, 0, 0, 1, 1, 1]
        faceToEdge := [(2, 1, 0), (3, 4, 2), (7, 5, 6)]
        numEdges := [5, 3], firstEdge := [0, 5] } := by
  constructor
  · intro m h1 h2 f hf
    have : m = 0 ∨ m = 1 := by simp [Abs.ofLists] at h1; omega
    rcases this with rfl | rfl
    · simp [Abs.ofLists] at hf ⊢
      rcases hf with rfl | rfl <;> decide
    · simp [Abs.ofLists] at hf ⊢
      subst hf; decide
  · decide +kernel

end batch

end P3D.Meshes
