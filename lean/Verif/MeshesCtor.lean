/- `Meshes`: padded constructor, update_padded, clone, normals (helpers for `MeshesProps`). -/
import Verif.MeshesUpdates

namespace P3D.Meshes

open P3D.StructUtils

variable {P K A E L : Type}

/-- The batch described by padded tensors: faces up to the padding. -/
def Abs.ofPadded (verts : List (List P)) (faces : List (List Face)) : Abs P where
  verts := verts
  faces := faces.map (fun r => r.takeWhile Face.real)
  vpad := List.replicate verts.length []
  fpad := faces.map (fun r => r.dropWhile Face.real)
  normals := .computed

theorem hasRise_cons_false {l : List Bool} (h : hasRise (false :: l) = false) :
    ∀ b ∈ l, b = false := by
  induction l with
  | nil => simp
  | cons c l ih =>
    simp only [hasRise, Bool.not_false, Bool.true_and, Bool.or_eq_false_iff] at h
    obtain ⟨h1, h2⟩ := h
    subst h1
    intro b hb
    rcases List.mem_cons.mp hb with rfl | hb
    · rfl
    · exact ih h2 b hb

theorem hasRise_tail {c : Bool} {l : List Bool} (h : hasRise (c :: l) = false) :
    hasRise l = false := by
  cases l with
  | nil => rfl
  | cons b l =>
    simp only [hasRise, Bool.or_eq_false_iff] at h
    exact h.2

/-- No rise: real faces first, padding after. -/
theorem noRise_split {r : List Face} (h : hasRise (r.map Face.real) = false) :
    (∀ f ∈ r.dropWhile Face.real, Face.real f = false) := by
  induction r with
  | nil => simp
  | cons f r ih =>
    by_cases hf : Face.real f = true
    · rw [List.dropWhile_cons, if_pos hf]
      exact ih (hasRise_tail h)
    · rw [List.dropWhile_cons, if_neg hf]
      have hf' : Face.real f = false := by simpa using hf
      rw [List.map_cons, hf'] at h
      intro g hg
      rcases List.mem_cons.mp hg with rfl | hg
      · exact hf'
      · exact hasRise_cons_false h _ (List.mem_map_of_mem hg)

theorem hasRise_false_of_all {l : List Bool} (h : ∀ b ∈ l, b = false) : hasRise l = false := by
  induction l with
  | nil => rfl
  | cons a l ih =>
    cases l with
    | nil => rfl
    | cons b l =>
      simp only [hasRise, Bool.or_eq_false_iff]
      refine ⟨?_, ih (fun c hc => h c (List.mem_cons_of_mem _ hc))⟩
      rw [h b (by simp)]; simp

theorem hasRise_append {f p : List Face} (hf : ∀ t ∈ f, Face.real t = true)
    (hp : ∀ t ∈ p, Face.real t = false) : hasRise ((f ++ p).map Face.real) = false := by
  induction f with
  | nil =>
    apply hasRise_false_of_all
    intro b hb
    obtain ⟨t, ht, rfl⟩ := List.mem_map.mp hb
    exact hp t ht
  | cons a f ih =>
    have := ih (fun t ht => hf t (List.mem_cons_of_mem _ ht))
    rw [List.cons_append, List.map_cons, hf a (by simp)]
    cases hfp : (f ++ p).map Face.real with
    | nil => rfl
    | cons b l =>
      rw [hfp] at this
      simpa [hasRise] using this

theorem countP_append_real {f p : List Face} (hf : ∀ t ∈ f, Face.real t = true)
    (hp : ∀ t ∈ p, Face.real t = false) : ((f ++ p).map Face.real).countP id = f.length := by
  rw [List.countP_map, List.countP_append]
  have h1 : f.countP (id ∘ Face.real) = f.length := List.countP_eq_length.mpr (by simpa using hf)
  have h2 : p.countP (id ∘ Face.real) = 0 := List.countP_eq_zero.mpr (by
    intro t ht; simp [hp t ht])
  rw [h1, h2]; rfl

theorem map_zipWith_congr {X Y Z : Type} (g : Z → Y) (u : X → Y) (op : X → X → Z) :
    ∀ (f p : List X), p.length = f.length →
      (∀ i (h1 : i < f.length) (h2 : i < p.length), g (op f[i] p[i]) = u f[i]) →
      (List.zipWith op f p).map g = f.map u := by
  intro f p hl h
  apply List.ext_getElem
  · simp [hl]
  · intro i h1 h2
    have hi : i < f.length := by simpa using h2
    simpa using h i hi (by omega)

/-- Counting the non-padded faces of the padded faces view gives the face counts. -/
theorem facesPadded_counts {a : Abs P} (h : a.WF) :
    (a.facesPadded.map (fun r => r.map Face.real)).map (fun r => r.countP id)
      = a.faces.map List.length := by
  rw [List.map_map, Abs.facesPadded]
  apply map_zipWith_congr
  · rw [h.lenFp, h.lenF]
  · intro i h1 h2
    exact countP_append_real (h.facesReal _ (List.getElem_mem h1)) (h.padReal _ (List.getElem_mem h2))

theorem facesPadded_noRise {a : Abs P} (h : a.WF) :
    (a.facesPadded.map (fun r => r.map Face.real)).any hasRise = false := by
  rw [Bool.eq_false_iff]
  intro hc
  rw [List.any_eq_true] at hc
  obtain ⟨b, hb, hbr⟩ := hc
  obtain ⟨r, hr, rfl⟩ := List.mem_map.mp hb
  obtain ⟨i, hi, rfl⟩ := List.mem_iff_getElem.mp hr
  have hi' : i < a.faces.length ∧ i < a.fpad.length := by
    simp [Abs.facesPadded] at hi; omega
  simp only [Abs.facesPadded, List.getElem_zipWith] at hbr
  rw [hasRise_append (h.facesReal _ (List.getElem_mem hi'.1))
    (h.padReal _ (List.getElem_mem hi'.2))] at hbr
  cases hbr

theorem maxNat_replicate (n w : Nat) (h : n ≠ 0) : maxNat (List.replicate n w) = w := by
  have hm : allSame (List.replicate n w) = true := by
    cases n with
    | zero => exact absurd rfl h
    | succ n => simp [List.replicate_succ, allSame]
  exact (maxNat_allSame hm (by rw [List.mem_replicate]; exact ⟨h, rfl⟩)).symm

theorem allSame_replicate (n w : Nat) (h : n ≠ 0) : allSame (List.replicate n w) = true := by
  cases n with
  | zero => exact absurd rfl h
  | succ n => simp [List.replicate_succ, allSame]

theorem zipWith_append_nil (v : List (List P)) :
    List.zipWith (· ++ ·) v (List.replicate v.length []) = v := by
  induction v with
  | nil => rfl
  | cons a v ih => simp [List.replicate_succ, ih]

theorem zipWith_takeWhile (fs : List (List Face)) :
    List.zipWith (· ++ ·) (fs.map (fun r => r.takeWhile Face.real))
      (fs.map (fun r => r.dropWhile Face.real)) = fs := by
  induction fs with
  | nil => rfl
  | cons a v ih => simp only [List.map_cons, List.zipWith_cons_cons, ih, List.takeWhile_append_dropWhile]

theorem ofPadded_wf (w : Nat) (verts : List (List P)) (faces : List (List Face))
    (hlen : faces.length = verts.length) (hw : 0 < w) (hrow : ∀ r ∈ verts, r.length = w)
    (hrise : (faces.map (fun r => r.map Face.real)).any hasRise = false)
    (hne : ∃ r ∈ faces, r.takeWhile Face.real ≠ []) :
    (Abs.ofPadded verts faces).WF := by
  have hlens : verts.map List.length = List.replicate verts.length w := by
    rw [List.eq_replicate_iff]
    refine ⟨by simp, ?_⟩
    intro b hb
    obtain ⟨r, hr, rfl⟩ := List.mem_map.mp hb
    exact hrow r hr
  refine ⟨by simp [Abs.ofPadded, hlen], by simp [Abs.ofPadded], by simp [Abs.ofPadded, hlen], ?_, ?_,
    ?_, ?_⟩
  · obtain ⟨r, hr, hr0⟩ := hne
    obtain ⟨i, hi, rfl⟩ := List.mem_iff_getElem.mp hr
    refine ⟨i, by simp [Abs.ofPadded]; omega, ?_, by simpa [Abs.ofPadded] using hr0⟩
    have : (verts[i]'(by omega)).length = w := hrow _ (List.getElem_mem _)
    intro hc
    have hc' : verts[i]'(by omega) = [] := hc
    rw [hc'] at this
    simp at this; omega
  · intro f hf t ht
    obtain ⟨g, _, rfl⟩ := List.mem_map.mp hf
    exact List.all_eq_true.mp (List.all_takeWhile (p := Face.real) (l := g)) t ht
  · intro f hf t ht
    obtain ⟨g, hg, rfl⟩ := List.mem_map.mp hf
    refine noRise_split ?_ t ht
    rw [Bool.eq_false_iff] at hrise ⊢
    intro hc
    apply hrise
    rw [List.any_eq_true]
    exact ⟨_, List.mem_map_of_mem hg, hc⟩
  · intro r hr
    have hvne : verts.length ≠ 0 := by
      intro hc
      have := List.length_eq_zero_iff.mp hc
      subst this
      simp [Abs.ofPadded, Abs.vertsPadded] at hr
    simp only [Abs.vertsPadded, Abs.ofPadded, zipWith_append_nil] at hr
    simp only [Abs.maxVerts, Abs.ofPadded, hlens, maxNat_replicate _ _ hvne]
    exact hrow r hr

theorem resetCounts_of {s : State P A E L} (h : isEmptyBatch s = false) : resetCounts s = s := by
  simp [resetCounts, h]

theorem inv_ofPadded (ops : Ops P K A E L) (w : Nat) (verts : List (List P))
    (faces : List (List Face))
    (hlen : faces.length = verts.length) (hw : 0 < w) (hrow : ∀ r ∈ verts, r.length = w)
    (hrise : (faces.map (fun r => r.map Face.real)).any hasRise = false)
    (hne : ∃ r ∈ faces, r.takeWhile Face.real ≠ []) :
    ∃ s : State P A E L, ofPadded w verts faces = .ok s ∧ Inv ops (Abs.ofPadded verts faces) s := by
  have hwf := ofPadded_wf w verts faces hlen hw hrow hrise hne
  have hfp : (Abs.ofPadded verts faces).facesPadded = faces := by
    simp only [Abs.facesPadded, Abs.ofPadded, zipWith_takeWhile]
  have hvp : (Abs.ofPadded verts faces).vertsPadded = verts := by
    simp only [Abs.vertsPadded, Abs.ofPadded, zipWith_append_nil]
  have hcnt := facesPadded_counts hwf
  rw [hfp] at hcnt
  have hlens : verts.map List.length = List.replicate verts.length w := by
    rw [List.eq_replicate_iff]
    refine ⟨by simp, ?_⟩
    intro b hb
    obtain ⟨r, hr, rfl⟩ := List.mem_map.mp hb
    exact hrow r hr
  have hvne : verts.length ≠ 0 := fun hc => hwf.ne_nil (List.length_eq_zero_iff.mp hc)
  have hvalid : (((Abs.ofPadded verts faces).faces.map List.length).map
      (fun n => decide (0 < n))).any id = true := by
    obtain ⟨r, hr, hr0⟩ := hne
    rw [List.any_eq_true]
    refine ⟨true, ?_, rfl⟩
    rw [List.mem_map]
    refine ⟨(r.takeWhile Face.real).length, ?_, ?_⟩
    · apply List.mem_map_of_mem
      simp only [Abs.ofPadded]
      exact List.mem_map_of_mem (f := fun r => r.takeWhile Face.real) hr
    · simpa using List.length_pos_iff.mpr hr0
  unfold ofPadded
  simp only [hrise, Bool.false_eq_true, if_false, hcnt]
  refine ⟨_, rfl, ?_⟩
  rw [resetCounts_of]
  · exact {
      wf := hwf
      hN := rfl
      hV := by simp only [Abs.maxVerts, Abs.ofPadded, hlens, maxNat_replicate _ _ hvne]
      hF := rfl
      hvalid := hvalid
      hnv := by simp only [Abs.ofPadded, hlens]
      hnf := rfl
      heq := fun h => ⟨by simp only [Abs.ofPadded, hlens]; exact allSame_replicate _ _ hvne, h⟩
      hvl := coh_none _, hfl := coh_none _
      hvp := by rw [hvp]; exact coh_some _
      hfp := by rw [hfp]; exact coh_some _
      hboth := rfl
      hdata := fun h => by simp at h
      hpk := coh_none _, hpp := coh_none _, hed := coh_none _, hlap := coh_none _
      har := coh_none _, hvn := fun _ _ => coh_none _
      hun := fun n h => by simp [Abs.ofPadded] at h }
  · simp only [isEmptyBatch, Bool.or_eq_false_iff, beq_eq_false_iff_ne, ne_eq]
    refine ⟨hvne, ?_⟩
    rw [Bool.eq_false_iff]
    intro hc
    rw [List.any_eq_true] at hvalid
    obtain ⟨b, hb, hbt⟩ := hvalid
    have := List.all_eq_true.mp hc b hb
    simp at hbt
    simp [hbt] at this

theorem inv_setNormals {ops : Ops P K A E L} {a : Abs P} {s : State P A E L} (h : Inv ops a s)
    (n : List (List P)) (hn : n.map List.length = a.verts.map List.length) :
    ∃ s', setNormals s n = .ok s' ∧ Inv ops { a with normals := .user n.flatten } s' := by
  have hlen : n.length = a.verts.length := by have := congrArg List.length hn; simpa using this
  have hall : (List.zipWith (fun (n : List P) k => n.length == k) n s.numVerts).all id = true := by
    rw [h.hnv, ← hn, List.zipWith_map_right, List.zipWith_self, List.all_map]
    simp
  refine ⟨{ s with vnormals := some n.flatten }, ?_, ?_⟩
  · simp only [setNormals, h.hN, hlen, ne_eq, not_true_eq_false, if_false, hall, if_true]
  · exact { h with
      wf := { h.wf with }
      hvn := by
        intro v hv
        simp only [Abs.vnormals, Option.some.injEq] at hv
        subst hv
        exact coh_some _
      hun := fun _ _ => rfl }

theorem inv_clone {ops : Ops P K A E L} {a : Abs P} {s : State P A E L} (h : Inv ops a s) :
    ∃ c s', clone s = .ok (c, s') ∧ Inv ops a c ∧ Inv ops a s' := by
  obtain ⟨s1, e1, i1, l1, r1⟩ := inv_getVertsList h
  obtain ⟨s2, e2, i2, l2, r2⟩ := inv_getFacesList i1
  have ec : clone s = .ok ({ s2 with
      N := (ofList a.verts a.faces : State P A E L).N
      V := (ofList a.verts a.faces : State P A E L).V
      F := (ofList a.verts a.faces : State P A E L).F
      equisized := (ofList a.verts a.faces : State P A E L).equisized
      vertsList := (ofList a.verts a.faces : State P A E L).vertsList
      facesList := (ofList a.verts a.faces : State P A E L).facesList }, s2) := by
    simp only [clone, e1, e2, bind, Except.bind]
  refine ⟨_, s2, ec, ?_, i2⟩
  · have hfl := map_filter_real_id h.wf.facesReal
    have hN : (ofList a.verts a.faces : State P A E L).N = a.verts.length := by
      simp only [ofList, resetCounts]; split <;> rfl
    have hV : (ofList a.verts a.faces : State P A E L).V = a.maxVerts := by
      simp only [ofList, resetCounts]; split <;> rfl
    have hF : (ofList a.verts a.faces : State P A E L).F = a.maxFaces := by
      simp only [ofList, resetCounts, hfl]; split <;> rfl
    have hE : (ofList a.verts a.faces : State P A E L).equisized =
        (allSame (a.verts.map List.length) && allSame (a.faces.map List.length)) := by
      simp only [ofList, resetCounts, hfl]; split <;> rfl
    have hvl : (ofList a.verts a.faces : State P A E L).vertsList = some a.verts := by
      simp only [ofList, resetCounts]; split <;> rfl
    have hfl' : (ofList a.verts a.faces : State P A E L).facesList = some a.faces := by
      simp only [ofList, resetCounts, hfl]; split <;> rfl
    exact { i2 with
      hN := hN
      hV := hV
      hF := hF
      heq := fun hh => by rw [hE] at hh; simpa using hh
      hvl := by rw [hvl]; exact coh_some _
      hfl := by rw [hfl']; exact coh_some _
      hdata := fun hc => by
        obtain ⟨_, _, d3, d4⟩ := i2.hdata hc
        exact ⟨by rw [hvl]; rfl, by rw [hfl']; rfl, d3, d4⟩ }

/-- Gathering the packed vertices from a new padded tensor. -/
theorem gather_padToPacked {a : Abs P} (nv : List (List P)) (hl : nv.length = a.verts.length)
    (hw : ∀ r ∈ nv, r.length = a.maxVerts) :
    gather nv.flatten a.padToPacked = .ok (a.replacePadded nv).vertsPacked := by
  apply mapM_lookup_ok
  have := packedIdx_lookup a.maxVerts nv (a.verts.map List.length) hw (by simp [hl]) (by
    intro v hv; exact maxNat_ge hv)
  have h2 : List.zipWith (fun (row : List P) n => row.take n) nv (a.verts.map List.length)
      = (a.replacePadded nv).verts := by
    simp [Abs.replacePadded, List.zipWith_map_right]
  rw [h2] at this
  exact this

theorem replacePadded_lengths {a : Abs P} (nv : List (List P)) (hl : nv.length = a.verts.length)
    (hw : ∀ r ∈ nv, r.length = a.maxVerts) :
    (a.replacePadded nv).verts.map List.length = a.verts.map List.length := by
  apply List.ext_getElem
  · simp [Abs.replacePadded, hl]
  · intro i h1 h2
    have hi : i < a.verts.length := by simpa using h2
    have h3 : (nv[i]'(by omega)).length = a.maxVerts := hw _ (List.getElem_mem _)
    have h4 : a.verts[i].length ≤ a.maxVerts := maxNat_ge (List.mem_map_of_mem (List.getElem_mem hi))
    simp only [Abs.replacePadded, List.getElem_map, List.getElem_zipWith, List.length_take, h3]
    omega

theorem replacePadded_vertsPadded {a : Abs P} (nv : List (List P))
    (hl : nv.length = a.verts.length) : (a.replacePadded nv).vertsPadded = nv := by
  apply List.ext_getElem
  · simp [Abs.vertsPadded, Abs.replacePadded, hl]
  · intro i h1 h2
    simp [Abs.vertsPadded, Abs.replacePadded]

theorem replacePadded_vpad_lengths {a : Abs P} (h : a.WF) (nv : List (List P))
    (hl : nv.length = a.verts.length) (hw : ∀ r ∈ nv, r.length = a.maxVerts) :
    (a.replacePadded nv).vpad.map List.length = a.vpad.map List.length := by
  apply List.ext_getElem
  · simp [Abs.replacePadded, hl, h.lenVp]
  · intro i h1 h2
    have hi : i < a.vpad.length := by simpa using h2
    have hi' : i < a.verts.length := by rw [← h.lenVp]; exact hi
    have h3 : (nv[i]'(by omega)).length = a.maxVerts := hw _ (List.getElem_mem _)
    have h5 : (a.vertsPadded[i]'(by simp [Abs.vertsPadded]; omega)).length = a.maxVerts :=
      h.vwidth _ (List.getElem_mem _)
    simp only [Abs.vertsPadded, List.getElem_zipWith, List.length_append] at h5
    simp only [Abs.replacePadded, List.getElem_map, List.getElem_zipWith, List.length_drop, h3]
    omega

theorem inv_updatePadded {ops : Ops P K A E L} {a : Abs P} {s : State P A E L} (h : Inv ops a s)
    (nv : List (List P)) (hl : nv.length = a.verts.length)
    (hw : ∀ r ∈ nv, r.length = a.maxVerts) :
    ∃ new s', updatePadded ops nv s = .ok (new, s') ∧ Inv ops (a.replacePadded nv) new ∧
      Inv ops a s' := by
  obtain ⟨s1, e1, i1, v1, f1, p1⟩ := inv_computePadded h
  have hshape : ¬ (nv.length ≠ s.N ∨ ∃ r ∈ nv, r.length ≠ s.V) := by
    rw [h.hN, h.hV]
    rintro (hc | ⟨r, hr, hc⟩)
    · exact hc hl
    · exact hc (hw r hr)
  have hlens := replacePadded_lengths nv hl hw
  have hwf : (a.replacePadded nv).WF :=
    sameShape_wf h.wf hlens rfl rfl (replacePadded_vpad_lengths h.wf nv hl hw)
  -- the fresh object
  have hnew : ∃ n0 : State P A E L, ofPadded s1.V nv a.facesPadded = .ok n0 ∧
      n0.N = nv.length ∧ n0.V = s1.V ∧ n0.F = a.maxFaces ∧ n0.vertsList = none ∧
      n0.vertsPadded = some nv ∧ n0.facesPadded = some a.facesPadded ∧ n0.packed = none ∧
      n0.padToPacked = none ∧ n0.edges = none ∧ n0.areas = none ∧ n0.vnormals = none ∧
      n0.lap = none := by
    unfold ofPadded
    simp only [facesPadded_noRise h.wf, facesPadded_counts h.wf, Bool.false_eq_true, if_false]
    refine ⟨_, rfl, ?_⟩
    simp only [resetCounts]
    split <;> simp [Abs.maxFaces]
  obtain ⟨n0, en, q1, q2, q3, q4, q5, q6, q7, q8, q9, q10, q11, q12⟩ := hnew
  have hsize : ¬ (n0.N ≠ s1.N ∨ n0.V ≠ s1.V ∨ n0.F ≠ s1.F) := by
    rw [q1, q2, q3, i1.hN, i1.hF, hl]; simp
  have hpkb : (a.replacePadded nv).packed =
      { a.packed with verts := (a.replacePadded nv).vertsPacked } := sameShape_packed hlens rfl
  have base : ∀ (pk : Option (PackedView P)) (pp : Option (List Nat)),
      Coh pk (a.replacePadded nv).packed → Coh pp (a.replacePadded nv).padToPacked →
      Inv ops (a.replacePadded nv) { n0 with
          equisized := s1.equisized
          numVerts := s1.numVerts
          numFaces := s1.numFaces
          valid := s1.valid
          facesList := s1.facesList
          packed := pk
          padToPacked := pp
          edges := s1.edges
          lap := s1.lap } := by
    intro pk pp hpk hpp
    exact {
      wf := hwf
      hN := by simp only [q1, hl]; exact (sameShape_length hlens).symm
      hV := by simp only [q2, i1.hV, sameShape_maxVerts hlens]
      hF := by simp only [q3]; rfl
      hvalid := i1.hvalid
      hnv := by simp only [i1.hnv, hlens]
      hnf := i1.hnf
      heq := by simp only [hlens]; exact i1.heq
      hvl := by simp only [q4]; exact coh_none _
      hfl := i1.hfl
      hvp := by simp only [q5, replacePadded_vertsPadded nv hl]; exact coh_some _
      hfp := by simp only [q6]; exact coh_some _
      hboth := by simp only [q5, q6]; rfl
      hdata := fun hc => by simp [q5] at hc
      hpk := hpk
      hpp := hpp
      hed := by rw [sameShape_edges hlens rfl]; exact i1.hed
      hlap := by rw [sameShape_lap hlens rfl]; exact i1.hlap
      har := by simp only [q10]; exact coh_none _
      hvn := fun _ _ => by simp only [q11]; exact coh_none _
      hun := fun n hc => by simp [Abs.replacePadded] at hc }
  have hfirst : getFacesPadded ops.zero s = .ok (some a.facesPadded, s1) := by
    simp only [getFacesPadded, e1, bind, Except.bind, f1]
  cases hp : s1.packed with
  | none =>
    refine ⟨_, s1, ?_, base n0.packed n0.padToPacked (by rw [q7]; exact coh_none _)
      (by rw [q8]; exact coh_none _), i1⟩
    simp only [updatePadded, hshape, if_false, hfirst, bind, Except.bind, en, hsize, hp]
  | some p =>
    have hpe := i1.hpk p hp
    subst hpe
    obtain ⟨s2, e2, i2, r2⟩ := inv_getPadToPacked i1
    refine ⟨_, s2, ?_, base (some { a.packed with verts := (a.replacePadded nv).vertsPacked })
      (some a.padToPacked) (by rw [← hpkb]; exact coh_some _)
      (by rw [sameShape_padToPacked hlens]; exact coh_some _), i2⟩
    simp only [updatePadded, hshape, if_false, hfirst, bind, Except.bind, en, hsize, hp, e2,
      gather_padToPacked nv hl hw]
    subst r2
    rfl

end P3D.Meshes
