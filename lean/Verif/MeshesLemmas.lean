/- Helper lemmas for the `Meshes` refinement proofs. -/
import Verif.MeshesSpec
import Verif.PackedPaddedProps

namespace P3D.Meshes

open P3D.StructUtils

variable {P K A E L : Type}

theorem offset_eq_firsts {X : Type} (x : List (List X)) (i : Nat) :
    StructUtils.offset x i = ((x.map List.length).take i).sum := by
  simp [StructUtils.offset, List.map_take]

/-- The pieces concatenated in `meshIdx`. -/
def idxBlocks (l : List Nat) : List (List Nat) := l.zipIdx.map (fun p => List.replicate p.1 p.2)

theorem idxBlocks_lengths (l : List Nat) : (idxBlocks l).map List.length = l := by
  apply List.ext_getElem
  · simp [idxBlocks]
  · intro i h1 h2; simp [idxBlocks]

theorem listToPacked_eq {X : Type} (x : List (List X)) (hx : x ≠ []) :
    listToPacked x = .ok ⟨x.flatten, x.map List.length, Abs.firsts (x.map List.length),
      Abs.meshIdx (x.map List.length)⟩ := by
  cases hp : listToPacked x with
  | error e =>
    have : listToPacked x = .error .valueError := by
      cases x <;> simp_all [listToPacked]
    exact absurd ((listToPacked_error_iff x).mp this) hx
  | ok p =>
    obtain ⟨h1, h2, h3, h4, h5⟩ := listToPacked_index x p hp
    have hpk : p.packed = x.flatten := by
      cases x with
      | nil => simp at hx
      | cons a x =>
        simp only [listToPacked, List.isEmpty_cons, Bool.false_eq_true, if_false,
          Except.ok.injEq] at hp
        rw [← hp]
    congr 1
    cases p with
    | mk packed numItems firstIdx toListIdx =>
    simp only at h1 h2 h3 h4 h5 hpk
    subst h1 hpk
    congr 1
    · rw [h4, Abs.firsts, List.length_map]
      apply List.map_congr_left
      intro k _
      exact offset_eq_firsts x k
    · have hbl := idxBlocks_lengths (x.map List.length)
      have hlen : (idxBlocks (x.map List.length)).flatten.length = x.flatten.length := by
        rw [List.length_flatten, List.length_flatten, hbl]
      apply List.ext_getElem?
      intro r
      by_cases hr : r < x.flatten.length
      · obtain ⟨b, i, hb, hi, rfl⟩ := PackedPadded.exists_offset x r hr
        rw [(h5 b i hb hi).2]
        have hb' : b < (idxBlocks (x.map List.length)).length := by simpa [idxBlocks] using hb
        have hoff : StructUtils.offset (idxBlocks (x.map List.length)) b = StructUtils.offset x b := by
          rw [offset_eq_firsts, offset_eq_firsts, hbl]
        have := flatten_getElem?_offset (idxBlocks (x.map List.length)) b i hb'
          (by simpa [idxBlocks] using hi)
        rw [hoff] at this
        show _ = (idxBlocks (x.map List.length)).flatten[_]?
        rw [this]
        simp [idxBlocks]
      · rw [List.getElem?_eq_none (by omega)]
        show _ = (idxBlocks (x.map List.length)).flatten[_]?
        rw [List.getElem?_eq_none (by omega)]

theorem gather_ok {X : Type} (l : List X) (idx : List Nat) (g : Nat → X)
    (h : ∀ i ∈ idx, l[i]? = some (g i)) : gather l idx = .ok (idx.map g) := by
  apply mapM_lookup_ok
  rw [List.map_map]
  apply List.map_congr_left
  intro i hi
  exact h i hi

theorem mem_meshIdx {l : List Nat} {i : Nat} (h : i ∈ Abs.meshIdx l) : i < l.length := by
  simp only [Abs.meshIdx, List.mem_flatten, List.mem_map] at h
  obtain ⟨b, ⟨⟨n, k⟩, hp, rfl⟩, hi⟩ := h
  have := List.eq_of_mem_replicate hi
  subst this
  have := List.mem_zipIdx hp
  omega

theorem zipWith_append' {X Y Z : Type} (f : X → Y → Z) (a b : List X) (c d : List Y)
    (h : a.length = c.length) :
    List.zipWith f (a ++ b) (c ++ d) = List.zipWith f a c ++ List.zipWith f b d :=
  List.zipWith_append h

theorem facesPacked_aux (g : Nat → Nat) (vs : List (List P)) (fs : List (List Face))
    (hlen : fs.length = vs.length) (k o : Nat)
    (hg : ∀ i, i < vs.length → g (k + i) = o + ((vs.map List.length).take i).sum) :
    List.zipWith Face.shift fs.flatten
      (((((fs.map List.length).zipIdx k).map (fun p => List.replicate p.1 p.2)).flatten).map g)
      = Abs.facesPackedAux o vs fs := by
  induction fs generalizing vs k o with
  | nil => cases vs <;> simp [Abs.facesPackedAux]
  | cons f fs ih =>
    cases vs with
    | nil => simp at hlen
    | cons v vs =>
      simp only [List.map_cons, List.zipIdx_cons, List.flatten_cons, List.map_append,
        List.map_replicate, Abs.facesPackedAux]
      rw [zipWith_append' _ _ _ _ _ (by simp)]
      congr 1
      · have hk : g k = o := by simpa using hg 0 (by simp)
        rw [hk]
        clear ih hg hlen
        induction f with
        | nil => simp
        | cons t f ih => simp [List.replicate_succ, ih]
      · apply ih vs (by simpa using hlen) (k+1) (o + v.length)
        intro i hi
        have := hg (i+1) (by simp; omega)
        simp only [List.map_cons, List.take_succ_cons, List.sum_cons] at this
        rw [Nat.add_assoc, Nat.add_comm 1 i, this]
        omega

theorem maxNat_ge {l : List Nat} {n : Nat} (h : n ∈ l) : n ≤ maxNat l :=
  (foldl_max_ge l 0).2 n h

theorem maxNat_allSame {l : List Nat} (h : allSame l = true) {n : Nat} (hn : n ∈ l) :
    n = maxNat l := by
  cases l with
  | nil => simp at hn
  | cons a l =>
    simp only [allSame, List.all_eq_true, beq_iff_eq] at h
    have hall : ∀ k ∈ a :: l, k = a := by
      intro k hk
      rcases List.mem_cons.mp hk with rfl | hk
      · rfl
      · exact h k hk
    rw [hall n hn]
    have hge := maxNat_ge (show a ∈ a :: l by simp)
    rcases foldl_max_mem (a :: l) 0 with h0 | h0
    · have : maxNat (a :: l) = 0 := h0
      omega
    · exact (hall _ h0).symm

/-- `list_to_padded` as called by `_compute_padded` returns data ++ padding on both code paths. -/
theorem listToPadded_max {X : Type} (x : List (List X)) (v : X) (eq : Bool) (hx : x ≠ [])
    (heq : eq = true → allSame (x.map List.length) = true) :
    listToPadded x (some (maxNat (x.map List.length))) v eq =
      .ok (List.zipWith (· ++ ·) x (x.map
        (fun y => List.replicate (maxNat (x.map List.length) - y.length) v))) := by
  have hexp : List.zipWith (· ++ ·) x (x.map
        (fun y => List.replicate (maxNat (x.map List.length) - y.length) v)) =
      x.map (expectedRow (maxNat (x.map List.length)) v) := by
    rw [List.zipWith_map_right, List.zipWith_self]
    rfl
  rw [hexp]
  cases eq with
  | false =>
    apply listToPadded_size x _ v hx
    intro y hy
    exact maxNat_ge (List.mem_map_of_mem hy)
  | true =>
    have hs := heq rfl
    have hid : x.map (expectedRow (maxNat (x.map List.length)) v) = x := by
      conv_rhs => rw [← List.map_id x]
      apply List.map_congr_left
      intro y hy
      have := maxNat_allSame hs (List.mem_map_of_mem hy)
      simp [expectedRow, ← this]
    rw [hid]
    cases x with
    | nil => simp at hx
    | cons a x =>
      have : x.all (fun z => z.length == a.length) = true := by
        simpa [allSame, List.all_map, Function.comp_def] using hs
      simp [listToPadded, this]

theorem zipWith_take_append {X : Type} (x pad : List (List X)) (h : pad.length = x.length) :
    List.zipWith (fun row n => row.take n) (List.zipWith (· ++ ·) x pad) (x.map List.length)
      = x := by
  induction x generalizing pad with
  | nil => simp
  | cons a x ih =>
    cases pad with
    | nil => simp at h
    | cons p pad => simp [ih pad (by simpa using h)]

theorem zipWith_drop_append {X : Type} (x pad : List (List X)) (h : pad.length = x.length) :
    List.zipWith (fun (row : List X) n => row.drop n) (List.zipWith (· ++ ·) x pad)
      (x.map List.length) = pad := by
  induction x generalizing pad with
  | nil => cases pad <;> simp_all
  | cons a x ih =>
    cases pad with
    | nil => simp at h
    | cons p pad => simp [ih pad (by simpa using h)]

theorem packedToList_eq {X Y : Type} (vs : List (List X)) (l : List Y)
    (h : l.length = (vs.map List.length).sum) :
    packedToList l (vs.map List.length) = .ok (Abs.reshapeLike vs l) := by
  unfold packedToList
  rw [if_pos h.symm]
  congr 1
  clear h
  induction vs generalizing l with
  | nil => rfl
  | cons v vs ih => simp [packedToList.go, Abs.reshapeLike, ih]

theorem reshapeLike_zipWith (f : P → P → P) (vs : List (List P)) (d : List P)
    (h : d.length = vs.flatten.length) :
    Abs.reshapeLike vs (List.zipWith f vs.flatten d) =
      List.zipWith (List.zipWith f) vs (Abs.reshapeLike vs d) := by
  induction vs generalizing d with
  | nil => rfl
  | cons v vs ih =>
    simp only [List.flatten_cons, List.length_append] at h
    simp only [Abs.reshapeLike, List.flatten_cons, List.zipWith_cons_cons]
    have hd : d = d.take v.length ++ d.drop v.length := (List.take_append_drop _ _).symm
    have htl : (d.take v.length).length = v.length := by simp; omega
    conv_lhs => rw [hd]
    rw [zipWith_append' _ _ _ _ _ htl.symm]
    have hzl : (List.zipWith f v (d.take v.length)).length = v.length := by simp; omega
    rw [List.take_append_of_le_length (by omega), List.take_of_length_le (by omega)]
    rw [List.drop_append, List.drop_of_length_le (by omega), hzl, Nat.sub_self, List.drop_zero,
      List.nil_append, ih _ (by rw [List.length_drop]; omega)]

theorem reshapeLike_lengths {X Y : Type} (vs : List (List X)) (d : List Y)
    (h : d.length = vs.flatten.length) :
    (Abs.reshapeLike vs d).map List.length = vs.map List.length := by
  induction vs generalizing d with
  | nil => rfl
  | cons v vs ih =>
    simp only [List.flatten_cons, List.length_append] at h
    simp only [Abs.reshapeLike, List.map_cons, List.length_take]
    rw [ih _ (by rw [List.length_drop]; omega)]
    congr 1
    omega

theorem reshapeLike_flatten {X Y : Type} (vs : List (List X)) (d : List Y)
    (h : d.length = vs.flatten.length) : (Abs.reshapeLike vs d).flatten = d := by
  induction vs generalizing d with
  | nil => simp at h; simp [Abs.reshapeLike, h]
  | cons v vs ih =>
    simp only [List.flatten_cons, List.length_append] at h
    simp only [Abs.reshapeLike, List.flatten_cons]
    rw [ih _ (by rw [List.length_drop]; omega), List.take_append_drop]

/-- `reshapeLike` depends only on the lengths. -/
theorem reshapeLike_congr {X X' Y : Type} (vs : List (List X)) (ws : List (List X')) (d : List Y)
    (h : vs.map List.length = ws.map List.length) :
    Abs.reshapeLike vs d = Abs.reshapeLike ws d := by
  induction vs generalizing ws d with
  | nil => cases ws <;> simp_all [Abs.reshapeLike]
  | cons v vs ih =>
    cases ws with
    | nil => simp at h
    | cons w ws =>
      simp only [List.map_cons, List.cons.injEq] at h
      simp [Abs.reshapeLike, h.1, ih ws _ h.2]

theorem facesPackedAux_congr {P' : Type} (o : Nat) (vs : List (List P)) (ws : List (List P'))
    (fs : List (List Face)) (h : vs.map List.length = ws.map List.length) :
    Abs.facesPackedAux o vs fs = Abs.facesPackedAux o ws fs := by
  induction vs generalizing ws fs o with
  | nil => cases ws <;> simp_all [Abs.facesPackedAux]
  | cons v vs ih =>
    cases ws with
    | nil => simp at h
    | cons w ws =>
      simp only [List.map_cons, List.cons.injEq] at h
      cases fs with
      | nil => rfl
      | cons f fs => simp [Abs.facesPackedAux, h.1, ih _ ws fs h.2]

theorem Abs.WF.ne_nil {a : Abs P} (h : a.WF) : a.verts ≠ [] := by
  obtain ⟨i, hi, _⟩ := h.nonempty
  intro hc; rw [hc] at hi; simp at hi

theorem Abs.WF.faces_ne_nil {a : Abs P} (h : a.WF) : a.faces ≠ [] := by
  intro hc
  have := h.lenF
  rw [hc] at this
  exact h.ne_nil (List.length_eq_zero_iff.mp this.symm)

theorem notEmpty {ops : Ops P K A E L} {a : Abs P} {s : State P A E L} (h : Core ops a s) :
    isEmptyBatch s = false := by
  have h1 : s.N ≠ 0 := by
    rw [h.hN]; intro hc; exact h.wf.ne_nil (List.length_eq_zero_iff.mp hc)
  have h2 := h.hvalid
  simp only [isEmptyBatch, Bool.or_eq_false_iff, beq_eq_false_iff_ne, ne_eq]
  refine ⟨h1, ?_⟩
  simp only [List.any_eq_true, id_eq] at h2
  obtain ⟨b, hb, hbt⟩ := h2
  rw [Bool.eq_false_iff]
  intro hc
  rw [List.all_eq_true] at hc
  have := hc b hb
  simp [hbt] at this

end P3D.Meshes
