/- Each `Meshes` method refines its specification (helper results for `MeshesProps`). -/
import Verif.MeshesLemmas

namespace P3D.Meshes

open P3D.StructUtils

variable {P K A E L : Type}

theorem coh_some {X : Type} (v : X) : Coh (some v) v := by
  intro x hx; exact (Option.some.inj hx).symm

theorem coh_none {X : Type} (v : X) : Coh none v := by intro x hx; cases hx

theorem core_getVertsList {ops : Ops P K A E L} {a : Abs P} {s : State P A E L}
    (h : Core ops a s) :
    ∃ s', getVertsList s = .ok (a.verts, s') ∧ Core ops a s' ∧ s'.vertsList = some a.verts ∧
      s' = { s with vertsList := some a.verts } := by
  cases hv : s.vertsList with
  | some l =>
    have := h.hvl l hv
    subst this
    refine ⟨s, by simp [getVertsList, hv], h, hv, ?_⟩
    rw [← hv]
  | none =>
    cases hp : s.vertsPadded with
    | none =>
      have := (h.hdata hp).1
      simp [hv] at this
    | some p =>
      have := h.hvp p hp
      subst this
      refine ⟨{ s with vertsList := some a.verts }, ?_, ?_, rfl, by rw [← hp]⟩
      · simp only [getVertsList, hv, hp, h.hnv, paddedToList]
        rw [if_neg (by simp [Abs.vertsPadded, h.wf.lenVp]), Abs.vertsPadded,
          zipWith_take_append _ _ h.wf.lenVp]
        rfl
      · exact { h with hvl := coh_some _, hdata := fun hc => by simp [hp] at hc }

theorem core_getFacesList {ops : Ops P K A E L} {a : Abs P} {s : State P A E L}
    (h : Core ops a s) :
    ∃ s', getFacesList s = .ok (a.faces, s') ∧ Core ops a s' ∧ s'.facesList = some a.faces ∧
      s' = { s with facesList := some a.faces } := by
  cases hv : s.facesList with
  | some l =>
    have := h.hfl l hv
    subst this
    refine ⟨s, by simp [getFacesList, hv], h, hv, ?_⟩
    rw [← hv]
  | none =>
    cases hp : s.facesPadded with
    | none =>
      have hvp : s.vertsPadded = none := by
        have := h.hboth; rw [hp] at this; simpa using this
      have := (h.hdata hvp).2.1
      simp [hv] at this
    | some p =>
      have := h.hfp p hp
      subst this
      have hlen : a.fpad.length = a.faces.length := by rw [h.wf.lenFp, h.wf.lenF]
      refine ⟨{ s with facesList := some a.faces }, ?_, ?_, rfl, by rw [← hp]⟩
      · simp only [getFacesList, hv, hp, h.hnf, paddedToList]
        rw [if_neg (by simp [Abs.facesPadded, hlen]), Abs.facesPadded,
          zipWith_take_append _ _ hlen]
        rfl
      · exact { h with
          hfl := coh_some _
          hdata := fun hc => by
            have := h.hboth; simp only at hc; rw [hc, hp] at this; simp at this }

theorem inv_getVertsList {ops : Ops P K A E L} {a : Abs P} {s : State P A E L} (h : Inv ops a s) :
    ∃ s', getVertsList s = .ok (a.verts, s') ∧ Inv ops a s' ∧ s'.vertsList = some a.verts ∧
      s' = { s with vertsList := some a.verts } := by
  obtain ⟨s', e, c, l, r⟩ := core_getVertsList h.toCore
  exact ⟨s', e, { c with
    har := by rw [r]; exact h.har
    hvn := by rw [r]; exact h.hvn
    hun := by rw [r]; exact h.hun }, l, r⟩

theorem inv_getFacesList {ops : Ops P K A E L} {a : Abs P} {s : State P A E L} (h : Inv ops a s) :
    ∃ s', getFacesList s = .ok (a.faces, s') ∧ Inv ops a s' ∧ s'.facesList = some a.faces ∧
      s' = { s with facesList := some a.faces } := by
  obtain ⟨s', e, c, l, r⟩ := core_getFacesList h.toCore
  exact ⟨s', e, { c with
    har := by rw [r]; exact h.har
    hvn := by rw [r]; exact h.hvn
    hun := by rw [r]; exact h.hun }, l, r⟩

theorem inv_computePadded {ops : Ops P K A E L} {a : Abs P} {s : State P A E L}
    (h : Inv ops a s) :
    ∃ s', computePadded ops.zero s = .ok s' ∧ Inv ops a s' ∧
      s'.vertsPadded = some a.vertsPadded ∧ s'.facesPadded = some a.facesPadded ∧
      s'.packed = s.packed := by
  by_cases hc : (s.vertsPadded.isSome && s.facesPadded.isSome) = true
  · refine ⟨s, by simp [computePadded, hc], h, ?_, ?_, rfl⟩
    · rw [Bool.and_eq_true] at hc
      obtain ⟨p, hp⟩ := Option.isSome_iff_exists.mp hc.1
      rw [hp, h.hvp p hp]
    · rw [Bool.and_eq_true] at hc
      obtain ⟨p, hp⟩ := Option.isSome_iff_exists.mp hc.2
      rw [hp, h.hfp p hp]
  · have hvn : s.vertsPadded = none := by
      have := h.hboth
      cases h1 : s.vertsPadded <;> cases h2 : s.facesPadded <;> simp_all
    obtain ⟨hd1, hd2, hd3, hd4⟩ := h.hdata hvn
    obtain ⟨s1, e1, i1, l1, r1⟩ := inv_getVertsList h
    obtain ⟨s2, e2, i2, l2, r2⟩ := inv_getFacesList i1
    have hne := notEmpty i2.toCore
    have hfp : listToPadded a.faces (some s2.F) ((-1, -1, -1) : Face) s2.equisized
        = .ok a.facesPadded := by
      rw [i2.hF, Abs.facesPadded, hd4]
      exact listToPadded_max a.faces _ _ h.wf.faces_ne_nil (fun he => (i2.heq he).2)
    have hvp : listToPadded a.verts (some s2.V) ops.zero s2.equisized = .ok a.vertsPadded := by
      rw [i2.hV, Abs.vertsPadded, hd3]
      exact listToPadded_max a.verts _ _ h.wf.ne_nil (fun he => (i2.heq he).1)
    refine ⟨{ s2 with facesPadded := some a.facesPadded, vertsPadded := some a.vertsPadded },
      ?_, ?_, rfl, rfl, ?_⟩
    · simp only [computePadded, hc, Bool.false_eq_true, if_false, e1, e2, bind, Except.bind, hne,
        hfp, hvp]
    · exact { i2 with
        hvp := coh_some _
        hfp := coh_some _
        hboth := rfl
        hdata := fun hc => by simp at hc }
    · subst r2; subst r1; rfl

theorem core_computePacked {ops : Ops P K A E L} {a : Abs P} {s : State P A E L}
    (h : Core ops a s) :
    ∃ s', computePacked s = .ok s' ∧ Core ops a s' ∧ s'.packed = some a.packed ∧
      (∃ vl fl, s' = { s with vertsList := vl, facesList := fl, packed := some a.packed }) := by
  cases hp : s.packed with
  | some p =>
    have := h.hpk p hp
    subst this
    exact ⟨s, by simp [computePacked, hp], h, hp, s.vertsList, s.facesList, by rw [← hp]⟩
  | none =>
    obtain ⟨s1, e1, i1, l1, r1⟩ := core_getVertsList h
    obtain ⟨s2, e2, i2, l2, r2⟩ := core_getFacesList i1
    have hne := notEmpty i2
    have hpv := listToPacked_eq a.verts h.wf.ne_nil
    have hpf := listToPacked_eq a.faces h.wf.faces_ne_nil
    have hg : gather (Abs.firsts (a.verts.map List.length)) (Abs.meshIdx (a.faces.map List.length))
        = .ok ((Abs.meshIdx (a.faces.map List.length)).map
            (fun k => ((a.verts.map List.length).take k).sum)) := by
      apply gather_ok
      intro i hi
      have := mem_meshIdx hi
      rw [List.length_map, h.wf.lenF] at this
      simp [Abs.firsts, this]
    have hfaces : List.zipWith Face.shift a.faces.flatten
        ((Abs.meshIdx (a.faces.map List.length)).map
            (fun k => ((a.verts.map List.length).take k).sum)) = a.facesPacked :=
      facesPacked_aux _ a.verts a.faces h.wf.lenF 0 0 (by intro i _; simp)
    refine ⟨{ s2 with packed := some a.packed }, ?_, ?_, rfl, ?_⟩
    · simp only [computePacked, hp, Option.isSome_none, Bool.false_eq_true, if_false, e1, e2, bind,
        Except.bind, hne, hpv, hpf, i2.hnv, i2.hnf, ne_eq, not_true_eq_false, hg, hfaces]
      rfl
    · exact { i2 with hpk := coh_some _ }
    · subst r2; subst r1; exact ⟨_, _, rfl⟩

theorem inv_computePacked {ops : Ops P K A E L} {a : Abs P} {s : State P A E L}
    (h : Inv ops a s) :
    ∃ s', computePacked s = .ok s' ∧ Inv ops a s' ∧ s'.packed = some a.packed ∧
      (∃ vl fl, s' = { s with vertsList := vl, facesList := fl, packed := some a.packed }) := by
  obtain ⟨s', e, c, l, vl, fl, r⟩ := core_computePacked h.toCore
  exact ⟨s', e, { c with
    har := by rw [r]; exact h.har
    hvn := by rw [r]; exact h.hvn
    hun := by rw [r]; exact h.hun }, l, vl, fl, r⟩

theorem inv_getPadToPacked {ops : Ops P K A E L} {a : Abs P} {s : State P A E L}
    (h : Inv ops a s) :
    ∃ s', getPadToPacked s = (a.padToPacked, s') ∧ Inv ops a s' ∧ 
      s' = { s with padToPacked := some a.padToPacked } := by
  cases hp : s.padToPacked with
  | some p =>
    have := h.hpp p hp
    subst this
    exact ⟨s, by simp [getPadToPacked, hp], h, by rw [← hp]⟩
  | none =>
    have : packedIdx s.V s.numVerts = a.padToPacked := by
      rw [h.hV, h.hnv]; rfl
    refine ⟨{ s with padToPacked := some a.padToPacked }, ?_, ?_, rfl⟩
    · simp only [getPadToPacked, hp, this]
    · exact { h with hpp := coh_some _ }

theorem inv_getEdges {ops : Ops P K A E L} {a : Abs P} {s : State P A E L} (h : Inv ops a s) :
    ∃ s', getEdges ops s = .ok (some (a.edges ops), s') ∧ Inv ops a s' ∧
      s'.packed = some a.packed := by
  by_cases hc : (s.edges.isSome && s.packed.isSome) = true
  · rw [Bool.and_eq_true] at hc
    obtain ⟨e, he⟩ := Option.isSome_iff_exists.mp hc.1
    obtain ⟨p, hp⟩ := Option.isSome_iff_exists.mp hc.2
    have h1 := h.hed e he
    have h2 := h.hpk p hp
    subst h1; subst h2
    exact ⟨s, by simp [getEdges, he, hp], h, hp⟩
  · obtain ⟨s1, e1, i1, p1, r1⟩ := inv_computePacked h
    have he : ops.edges s1.N a.packed.verts.length a.packed.faces a.packed.facesToMesh
        = a.edges ops := by rw [i1.hN]; rfl
    refine ⟨{ s1 with edges := some (a.edges ops) }, ?_, ?_, p1⟩
    · simp only [getEdges, hc, Bool.false_eq_true, if_false, notEmpty h.toCore, e1, bind, Except.bind, p1,
        he]
    · exact { i1 with hed := coh_some _ }

theorem inv_computeAreas {ops : Ops P K A E L} {a : Abs P} {s : State P A E L} (r : Bool)
    (h : Inv ops a s) :
    ∃ s', computeAreas ops r s = .ok s' ∧ Inv ops a s' ∧ s'.areas = some (a.areas ops) := by
  by_cases hc : (!r && s.areas.isSome) = true
  · rw [Bool.and_eq_true] at hc
    obtain ⟨e, he⟩ := Option.isSome_iff_exists.mp hc.2
    have := h.har e he
    subst this
    exact ⟨s, by simp_all [computeAreas], h, he⟩
  · obtain ⟨s1, e1, i1, p1, r1⟩ := inv_computePacked h
    refine ⟨{ s1 with areas := some (a.areas ops) }, ?_, ?_, rfl⟩
    · simp only [computeAreas, hc, Bool.false_eq_true, if_false, e1, bind, Except.bind, p1]
      rfl
    · exact { i1 with har := coh_some _ }

theorem inv_computeVNormals {ops : Ops P K A E L} {a : Abs P} {s : State P A E L}
    (h : Inv ops a s) :
    ∃ s', computeVNormals ops false s = .ok s' ∧ Inv ops a s' ∧ s'.vnormals.isSome ∧
      (∀ v, a.vnormals ops = some v → s'.vnormals = some v) := by
  cases hv : s.vnormals with
  | some e =>
    refine ⟨s, by simp [computeVNormals, hv], h, by rw [hv]; rfl, ?_⟩
    intro v hvv
    rw [hv, h.hvn v hvv e hv]
  | none =>
    obtain ⟨s1, e1, i1, p1, r1⟩ := inv_computePacked h
    have he : ∀ v, a.vnormals ops = some v → ops.vnormals a.packed.verts a.packed.faces = v := by
      intro v hvv
      cases hn : a.normals with
      | computed => simp only [Abs.vnormals, hn, Option.some.injEq] at hvv; rw [← hvv]; rfl
      | user n => have := h.hun n hn; rw [hv] at this; simp at this
      | unspecified => simp [Abs.vnormals, hn] at hvv
    refine ⟨{ s1 with vnormals := some (ops.vnormals a.packed.verts a.packed.faces) }, ?_, ?_, rfl,
      ?_⟩
    · simp only [computeVNormals, hv, Option.isSome_none, Bool.and_false, Bool.false_eq_true,
        if_false, notEmpty h.toCore, e1, bind, Except.bind, p1]
    · exact { i1 with
        hvn := fun v hvv => by rw [he v hvv]; exact coh_some _
        hun := fun _ _ => rfl }
    · intro v hvv; simp only [he v hvv]

theorem inv_getLap {ops : Ops P K A E L} {a : Abs P} {s : State P A E L} (h : Inv ops a s) :
    ∃ s', getLap ops s = .ok (some (a.lap ops), s') ∧ Inv ops a s' := by
  cases hl : s.lap with
  | some l =>
    have := h.hlap l hl
    subst this
    exact ⟨s, by simp [getLap, hl], h⟩
  | none =>
    obtain ⟨s1, e1, i1, p1, r1⟩ := inv_computePacked h
    obtain ⟨s2, e2, i2, p2⟩ := inv_getEdges i1
    refine ⟨{ s2 with lap := some (a.lap ops) }, ?_, ?_⟩
    · simp only [getLap, hl, Option.isSome_none, Bool.false_eq_true, if_false, notEmpty h.toCore, e1, e2,
        bind, Except.bind, p2]
      rfl
    · exact { i2 with hlap := coh_some _ }

/-! ### Updates -/

/-- Changing vertex values (not counts) keeps everything that only depends on counts and faces. -/
theorem sameShape_facesPacked {a b : Abs P} (hl : b.verts.map List.length = a.verts.map List.length)
    (hf : b.faces = a.faces) : b.facesPacked = a.facesPacked := by
  simp only [Abs.facesPacked, hf]
  exact facesPackedAux_congr 0 _ _ _ hl

theorem sameShape_flatten_length {a b : Abs P}
    (hl : b.verts.map List.length = a.verts.map List.length) :
    b.vertsPacked.length = a.vertsPacked.length := by
  simp only [Abs.vertsPacked, List.length_flatten, hl]

theorem sameShape_length {a b : Abs P}
    (hl : b.verts.map List.length = a.verts.map List.length) : b.verts.length = a.verts.length := by
  have := congrArg List.length hl; simpa using this

theorem sameShape_edges {ops : Ops P K A E L} {a b : Abs P}
    (hl : b.verts.map List.length = a.verts.map List.length) (hf : b.faces = a.faces) :
    b.edges ops = a.edges ops := by
  simp only [Abs.edges, sameShape_facesPacked hl hf, sameShape_flatten_length hl,
    sameShape_length hl, hf]

theorem sameShape_lap {ops : Ops P K A E L} {a b : Abs P}
    (hl : b.verts.map List.length = a.verts.map List.length) (hf : b.faces = a.faces) :
    b.lap ops = a.lap ops := by
  simp only [Abs.lap, sameShape_edges hl hf, sameShape_flatten_length hl]

theorem sameShape_packed {a b : Abs P}
    (hl : b.verts.map List.length = a.verts.map List.length) (hf : b.faces = a.faces) :
    b.packed = { a.packed with verts := b.vertsPacked } := by
  simp only [Abs.packed, sameShape_facesPacked hl hf, hl, hf]

theorem sameShape_maxVerts {a b : Abs P}
    (hl : b.verts.map List.length = a.verts.map List.length) : b.maxVerts = a.maxVerts := by
  simp only [Abs.maxVerts, hl]

theorem sameShape_padToPacked {a b : Abs P}
    (hl : b.verts.map List.length = a.verts.map List.length) : b.padToPacked = a.padToPacked := by
  simp only [Abs.padToPacked, sameShape_maxVerts hl, hl]

theorem getElem_length_of_map {X Y : Type} {x : List (List X)} {y : List (List Y)}
    (h : x.map List.length = y.map List.length) (i : Nat) (hi : i < x.length) (hi' : i < y.length) :
    x[i].length = y[i].length := by
  have h1 : (x.map List.length)[i]? = (y.map List.length)[i]? := by rw [h]
  simpa [hi, hi'] using h1

theorem sameShape_wf {a b : Abs P} (h : a.WF)
    (hl : b.verts.map List.length = a.verts.map List.length) (hf : b.faces = a.faces)
    (hfp : b.fpad = a.fpad) (hvp : b.vpad.map List.length = a.vpad.map List.length) : b.WF := by
  have hlen := sameShape_length hl
  have hvpl : b.vpad.length = a.vpad.length := by
    have := congrArg List.length hvp; simpa using this
  refine ⟨by rw [hf, hlen, h.lenF], by rw [hvpl, hlen, h.lenVp], by rw [hfp, hlen, h.lenFp], ?_,
    by rw [hf]; exact h.facesReal, by rw [hfp]; exact h.padReal, ?_⟩
  · obtain ⟨i, hi, h1, h2⟩ := h.nonempty
    refine ⟨i, by omega, ?_, by simpa only [hf] using h2⟩
    have := getElem_length_of_map hl i (by omega) hi
    intro hc
    rw [hc] at this
    exact h1 (List.length_eq_zero_iff.mp this.symm)
  · have key : b.vertsPadded.map List.length = a.vertsPadded.map List.length := by
      apply List.ext_getElem
      · simp [Abs.vertsPadded, hlen, hvpl]
      · intro i h1 h2
        have hi : i < a.verts.length := by simp [Abs.vertsPadded] at h2; omega
        have hip : i < a.vpad.length := by simp [Abs.vertsPadded] at h2; omega
        simp only [Abs.vertsPadded, List.getElem_map, List.getElem_zipWith, List.length_append]
        rw [getElem_length_of_map hl i (by omega) hi, getElem_length_of_map hvp i (by omega) hip]
    intro r hr
    rw [sameShape_maxVerts hl]
    have : r.length ∈ b.vertsPadded.map List.length := List.mem_map_of_mem hr
    rw [key] at this
    obtain ⟨r', hr', he⟩ := List.mem_map.mp this
    rw [← he]; exact h.vwidth r' hr'

theorem overwritePadded_eq {x y pad : List (List P)}
    (hl : y.map List.length = x.map List.length) :
    overwritePadded (List.zipWith (· ++ ·) x pad) y = List.zipWith (· ++ ·) y pad := by
  induction x generalizing y pad with
  | nil => cases y <;> simp_all [overwritePadded]
  | cons a x ih =>
    cases y with
    | nil => simp at hl
    | cons b y =>
      simp only [List.map_cons, List.cons.injEq] at hl
      cases pad with
      | nil => simp [overwritePadded]
      | cons p pad =>
        have := ih (y := y) (pad := pad) hl.2
        simp only [overwritePadded] at this ⊢
        simp [hl.1, this]

/-- Generic step: replace the vertex data everywhere it is cached. -/
theorem core_newVerts {ops : Ops P K A E L} {a b : Abs P} {s : State P A E L}
    (h : Core ops a s)
    (hl : b.verts.map List.length = a.verts.map List.length) (hf : b.faces = a.faces)
    (hfp : b.fpad = a.fpad) (hvp : b.vpad = a.vpad) (s' : State P A E L)
    (hs' : s' = { s with
      vertsList := some b.verts
      packed := s.packed.map (fun p => { p with verts := b.vertsPacked })
      vertsPadded := s.vertsPadded.map (fun vp => overwritePadded vp b.verts)
      areas := s'.areas
      vnormals := s'.vnormals }) : Core ops b s' := by
  have hwf := sameShape_wf h.wf hl hf hfp (by rw [hvp])
  constructor
  · exact hwf
  · rw [hs']; simp only [h.hN, sameShape_length hl]
  · rw [hs']; simp only [h.hV, sameShape_maxVerts hl]
  · rw [hs']; simp only [h.hF, Abs.maxFaces, hf]
  · rw [hs']; exact h.hvalid
  · rw [hs']; simp only [h.hnv, hl]
  · rw [hs']; simp only [h.hnf, hf]
  · rw [hs']; simp only [hl, hf]; exact h.heq
  · rw [hs']; exact coh_some _
  · rw [hs', hf]; exact h.hfl
  · rw [hs']
    intro x hx
    cases hp : s.vertsPadded with
    | none => simp [hp] at hx
    | some p =>
      have hpe := h.hvp p hp
      simp only [hp, Option.map_some, Option.some.injEq] at hx
      rw [← hx, hpe, Abs.vertsPadded, overwritePadded_eq hl, Abs.vertsPadded, hvp]
  · rw [hs']; simp only [Abs.facesPadded, hf, hfp]; exact h.hfp
  · rw [hs']; simp only [Option.isSome_map]; exact h.hboth
  · rw [hs']
    intro hc
    simp only [Option.map_eq_none_iff] at hc
    obtain ⟨d1, d2, d3, d4⟩ := h.hdata hc
    refine ⟨rfl, d2, ?_, ?_⟩
    · rw [hvp, d3]
      simp only [Abs.ofLists]
      have : ∀ (v : List (List P)) (m : Nat), v.map (fun r => List.replicate (m - r.length) ops.zero)
          = (v.map List.length).map (fun k => List.replicate (m - k) ops.zero) := by
        intro v m; rw [List.map_map]; rfl
      rw [this, this, hl]
    · rw [hfp, d4]; simp only [Abs.ofLists, hf]
  · rw [hs']
    intro x hx
    cases hp : s.packed with
    | none => simp [hp] at hx
    | some p =>
      have hpe := h.hpk p hp
      simp only [hp, Option.map_some, Option.some.injEq] at hx
      rw [← hx, hpe, sameShape_packed hl hf]
  · rw [hs', sameShape_padToPacked hl]; exact h.hpp
  · rw [hs', sameShape_edges hl hf]; exact h.hed
  · rw [hs', sameShape_lap hl hf]; exact h.hlap

end P3D.Meshes
