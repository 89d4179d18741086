/- `Meshes` updates and constructors refine their specification (helpers for `MeshesProps`). -/
import Verif.MeshesRefine

namespace P3D.Meshes

open P3D.StructUtils

variable {P K A E L : Type}

/-- Areas, face normals and vertex normals do not change when all vertices move by one vector. -/
def TransInv (ops : Ops P K A E L) : Prop :=
  ∀ (l : List P) (f : List Face) (t : P),
    ops.areas (l.map (fun p => ops.add p t)) f = ops.areas l f ∧
    ops.vnormals (l.map (fun p => ops.add p t)) f = ops.vnormals l f

theorem computeAreas_refresh (ops : Ops P K A E L) (s : State P A E L) (p : PackedView P)
    (hp : s.packed = some p) :
    computeAreas ops true s = .ok { s with areas := some (ops.areas p.verts p.faces) } := by
  simp [computeAreas, computePacked, hp, bind, Except.bind]

theorem computeVNormals_refresh (ops : Ops P K A E L) (s : State P A E L) (p : PackedView P)
    (hp : s.packed = some p) (he : isEmptyBatch s = false) :
    computeVNormals ops true s = .ok { s with vnormals := some (ops.vnormals p.verts p.faces) } := by
  simp [computeVNormals, computePacked, hp, he, bind, Except.bind]

theorem map_lengths_zipWith_map (g : K → P → P) (k : List K) (v : List (List P))
    (h : v.length ≤ k.length) :
    (List.zipWith (fun c v => v.map (g c)) k v).map List.length = v.map List.length := by
  induction v generalizing k with
  | nil => simp
  | cons a v ih =>
    cases k with
    | nil => simp at h
    | cons c k => simp [ih k (by simpa using h)]

theorem inv_offset_full {ops : Ops P K A E L} {a : Abs P} {s : State P A E L} (h : Inv ops a s)
    (d : List P) (hd : d.length = a.vertsPacked.length) :
    ∃ s', offsetVerts ops (.full d) s = .ok s' ∧ Inv ops (a.offset ops d) s' := by
  obtain ⟨s1, e1, i1, p1, -⟩ := inv_computePacked h
  have hd' : d.length = a.verts.flatten.length := hd
  have hflat : List.zipWith ops.add a.packed.verts d = (a.offset ops d).vertsPacked := by
    show List.zipWith ops.add a.verts.flatten d = (Abs.offset ops d a).verts.flatten
    rw [Abs.offset]
    simp only
    rw [← reshapeLike_zipWith _ _ _ hd', reshapeLike_flatten]
    simp [hd']
  have hlen : (a.offset ops d).verts.map List.length = a.verts.map List.length := by
    rw [Abs.offset]
    simp only
    rw [← reshapeLike_zipWith _ _ _ hd', reshapeLike_lengths]
    simp [hd']
  have hsplit : packedToList (List.zipWith ops.add a.packed.verts d) s1.numVerts
      = .ok (a.offset ops d).verts := by
    rw [i1.hnv, packedToList_eq]
    · show Except.ok (Abs.reshapeLike a.verts (List.zipWith ops.add a.verts.flatten d)) = _
      rw [reshapeLike_zipWith _ _ _ hd']; rfl
    · show (List.zipWith ops.add a.verts.flatten d).length = _
      simp [hd', List.length_flatten]
  have hpk : (a.offset ops d).packed = { a.packed with verts := (a.offset ops d).vertsPacked } :=
    sameShape_packed hlen rfl
  set b := a.offset ops d with hb
  set s2 : State P A E L := { s1 with
        packed := some { a.packed with verts := b.vertsPacked }
        vertsList := some b.verts
        vertsPadded := s1.vertsPadded.map (fun vp => overwritePadded vp b.verts) } with hs2
  have hpk2 : s2.packed = some b.packed := by rw [hpk]
  have hcore : ∀ x y, Core ops b { s2 with areas := x, vnormals := y } := fun x y =>
    core_newVerts i1.toCore hlen rfl rfl rfl _ (by
      rw [hs2, p1]; rfl)
  have hne : isEmptyBatch s2 = false := notEmpty (hcore s2.areas s2.vnormals)
  have hstart : offsetVerts ops (.full d) s = (do
      let s ← refreshAreas ops true s2
      refreshVNormals ops true s) := by
    simp only [offsetVerts, e1, bind, Except.bind, p1]
    have : d.length = a.packed.verts.length := hd
    simp only [this, ne_eq, not_true_eq_false, if_false, hflat] 
    rw [hflat] at hsplit
    simp only [hsplit]
    rfl
  have hbn : b.normals = .computed := rfl
  have harv : ops.areas b.packed.verts b.packed.faces = b.areas ops := rfl
  have hvnv : ∀ v, b.vnormals ops = some v → ops.vnormals b.packed.verts b.packed.faces = v := by
    intro v hv
    simp only [Abs.vnormals, hbn, Option.some.injEq] at hv
    rw [← hv]; rfl
  rw [hstart]
  -- areas
  have step1 : ∃ s3, refreshAreas ops true s2 = .ok s3 ∧
      Coh s3.areas (b.areas ops) ∧ s3 = { s2 with areas := s3.areas } := by
    simp only [refreshAreas, Bool.true_and]
    by_cases hc : s2.areas.isSome = true
    · rw [if_pos hc, computeAreas_refresh ops s2 _ hpk2, harv]
      exact ⟨_, rfl, coh_some _, rfl⟩
    · rw [if_neg hc]
      refine ⟨s2, rfl, ?_, rfl⟩
      intro x hx; rw [hx] at hc; simp at hc
  obtain ⟨s3, e3, ha3, r3⟩ := step1
  simp only [e3, bind, Except.bind]
  have hpk3 : s3.packed = some b.packed := by rw [r3]; exact hpk2
  have hne3 : isEmptyBatch s3 = false := by rw [r3]; exact hne
  have c3 : ∀ y, Core ops b { s3 with vnormals := y } := by intro y; rw [r3]; exact hcore _ _
  simp only [refreshVNormals, Bool.true_and]
  by_cases hc : s3.vnormals.isSome = true
  · rw [if_pos hc, computeVNormals_refresh ops s3 _ hpk3 hne3]
    refine ⟨_, rfl, { c3 _ with har := ?_, hvn := ?_, hun := ?_ }⟩
    · exact ha3
    · intro v hv; rw [hvnv v hv]; exact coh_some _
    · intro _ _; rfl
  · rw [if_neg hc]
    refine ⟨_, rfl, { c3 s3.vnormals with har := ?_, hvn := ?_, hun := ?_ }⟩
    · exact ha3
    · intro v _ x hx; rw [hx] at hc; simp at hc
    · intro n hh; rw [hbn] at hh; cases hh

theorem inv_offset_vec {ops : Ops P K A E L} (ht : TransInv ops) {a : Abs P} {s : State P A E L}
    (h : Inv ops a s) (t : P) :
    ∃ s', offsetVerts ops (.vec t) s = .ok s' ∧ Inv ops (a.translate ops t) s' := by
  obtain ⟨s1, e1, i1, p1, -⟩ := inv_computePacked h
  have hzip : ∀ l : List P, List.zipWith ops.add l (List.replicate l.length t)
      = l.map (fun p => ops.add p t) := by
    intro l
    induction l with
    | nil => rfl
    | cons x l ih => simp [List.replicate_succ, ih]
  have hflat : List.zipWith ops.add a.packed.verts (List.replicate a.packed.verts.length t)
      = (a.translate ops t).vertsPacked := by
    rw [hzip]
    show a.verts.flatten.map _ = (a.verts.map _).flatten
    rw [List.map_flatten]
  have hlen : (a.translate ops t).verts.map List.length = a.verts.map List.length := by
    simp [Abs.translate, Function.comp_def]
  have hsplit : packedToList (a.translate ops t).vertsPacked s1.numVerts
      = .ok (a.translate ops t).verts := by
    rw [i1.hnv, ← hlen, packedToList_eq]
    · congr 1
      have : ∀ l : List (List P), Abs.reshapeLike l l.flatten = l := by
        intro l
        induction l with
        | nil => rfl
        | cons v l ih => simp [Abs.reshapeLike, ih]
      exact this _
    · simp [Abs.vertsPacked, List.length_flatten]
  have hpk : (a.translate ops t).packed =
      { a.packed with verts := (a.translate ops t).vertsPacked } := sameShape_packed hlen rfl
  have hfp : (a.translate ops t).facesPacked = a.facesPacked := sameShape_facesPacked hlen rfl
  have hvpk : (a.translate ops t).vertsPacked = a.vertsPacked.map (fun p => ops.add p t) := by
    rw [← hflat, hzip]; rfl
  have hcore : Core ops (a.translate ops t) { s1 with
        packed := some { a.packed with verts := (a.translate ops t).vertsPacked }
        vertsList := some (a.translate ops t).verts
        vertsPadded := s1.vertsPadded.map (fun vp => overwritePadded vp (a.translate ops t).verts) } :=
    core_newVerts i1.toCore hlen rfl rfl rfl _ (by rw [p1]; rfl)
  refine ⟨_, ?_, { hcore with har := ?_, hvn := ?_, hun := ?_ }⟩
  · simp only [offsetVerts, e1, bind, Except.bind, p1, List.length_replicate, ne_eq,
      not_true_eq_false, if_false, hflat, hsplit, refreshAreas, refreshVNormals, Bool.false_and,
      Bool.false_eq_true]
  · have : (a.translate ops t).areas ops = a.areas ops := by
      simp only [Abs.areas, hfp, hvpk, (ht _ _ _).1]
    rw [this]; exact i1.har
  · have : (a.translate ops t).vnormals ops = a.vnormals ops := by
      simp only [Abs.vnormals, hfp, hvpk, (ht _ _ _).2]
      rfl
    rw [this]; exact i1.hvn
  · exact i1.hun

theorem inv_scale {ops : Ops P K A E L} {a : Abs P} {s : State P A E L} (h : Inv ops a s)
    (k : List K) (hk : a.verts.length ≤ k.length) :
    ∃ s', scaleVerts ops k s = .ok s' ∧ Inv ops (a.scale ops k) s' := by
  obtain ⟨s1, e1, i1, l1, r1⟩ := inv_getVertsList h
  have hlen : (a.scale ops k).verts.map List.length = a.verts.map List.length :=
    map_lengths_zipWith_map _ k a.verts hk
  set b := a.scale ops k with hb
  have hnl : List.zipWith (fun c v => v.map (ops.smul c)) k a.verts = b.verts := rfl
  set s2 : State P A E L := { s1 with
      vertsList := some b.verts
      packed := s1.packed.map (fun p => { p with verts := b.verts.flatten })
      vertsPadded := s1.vertsPadded.map (fun vp => overwritePadded vp b.verts) } with hs2
  have hcore : ∀ x y, Core ops b { s2 with areas := x, vnormals := y } := fun x y =>
    core_newVerts i1.toCore hlen rfl rfl rfl _ rfl
  have hfpk : b.facesPacked = a.facesPacked := sameShape_facesPacked hlen rfl
  have hsub : ∀ v, b.vnormals ops = some v → a.vnormals ops = some v := by
    intro v hv
    cases hn : a.normals with
    | user n => simpa [Abs.vnormals, hb, Abs.scale, hn] using hv
    | unspecified => simp [Abs.vnormals, hb, Abs.scale, hn] at hv
    | computed =>
      by_cases heq : ops.vnormals b.vertsPacked a.facesPacked
          = ops.vnormals a.vertsPacked a.facesPacked
      · have hbn : b.normals = .computed := by
          simp only [hb, Abs.scale, hn]
          rw [if_pos]; exact heq
        simp only [Abs.vnormals, hbn, hfpk, heq] at hv
        simp only [Abs.vnormals, hn]
        exact hv
      · have hbn : b.normals = .unspecified := by
          simp only [hb, Abs.scale, hn]
          rw [if_neg]; exact heq
        simp [Abs.vnormals, hbn] at hv
  have hvn : ∀ v, b.vnormals ops = some v → Coh s2.vnormals v := fun v hv => i1.hvn v (hsub v hv)
  have hun : ∀ n, b.normals = .user n → s2.vnormals.isSome := by
    intro n hn
    apply i1.hun n
    cases ha : a.normals with
    | user n' => rw [hb] at hn; simpa [Abs.scale, ha] using hn
    | unspecified => rw [hb] at hn; simp [Abs.scale, ha] at hn
    | computed =>
      rw [hb] at hn
      simp only [Abs.scale, ha] at hn
      split at hn <;> cases hn
  have hstart : scaleVerts ops k s =
      (if s2.areas.isSome then computeAreas ops true s2 else .ok s2) := by
    simp only [scaleVerts, e1, bind, Except.bind, Nat.not_lt.mpr hk, if_false]
    simp only [refreshAreas, Bool.true_and]
    rfl
  rw [hstart]
  by_cases hc : s2.areas.isSome = true
  · rw [if_pos hc]
    obtain ⟨s3, e3, c3, p3, vl, fl, r3⟩ := core_computePacked (hcore s2.areas s2.vnormals)
    refine ⟨{ s3 with areas := some (b.areas ops) }, ?_, ?_⟩
    · have e3' : computePacked s2 = .ok s3 := e3
      simp only [computeAreas, Bool.not_true, Bool.false_and, Bool.false_eq_true, if_false, e3',
        bind, Except.bind, p3]
      rfl
    · exact { c3 with
        har := coh_some _
        hvn := by rw [r3]; exact hvn
        hun := by rw [r3]; exact hun }
  · rw [if_neg hc]
    refine ⟨s2, rfl, { hcore s2.areas s2.vnormals with har := ?_, hvn := hvn, hun := hun }⟩
    intro x hx; rw [hx] at hc; simp at hc

/-! ### Constructors -/

theorem filter_real_id {f : List Face} (h : ∀ t ∈ f, Face.real t = true) :
    f.filter Face.real = f := List.filter_eq_self.mpr h

theorem map_filter_real_id {fs : List (List Face)} (h : ∀ f ∈ fs, ∀ t ∈ f, Face.real t = true) :
    fs.map (fun f => f.filter Face.real) = fs := by
  conv_rhs => rw [← List.map_id fs]
  apply List.map_congr_left
  intro f hf
  exact filter_real_id (h f hf)

theorem ofLists_wf (zero : P) (verts : List (List P)) (faces : List (List Face))
    (hlen : faces.length = verts.length)
    (hne : ∃ i, ∃ (h : i < verts.length), verts[i] ≠ [] ∧ faces[i]'(by omega) ≠ [])
    (hreal : ∀ f ∈ faces, ∀ t ∈ f, Face.real t = true) :
    (Abs.ofLists zero verts faces).WF := by
  refine ⟨hlen, by simp [Abs.ofLists], by simp [Abs.ofLists, hlen], hne, hreal, ?_, ?_⟩
  · intro fs hfs f hf
    simp only [Abs.ofLists, List.mem_map] at hfs
    obtain ⟨g, _, rfl⟩ := hfs
    rw [List.eq_of_mem_replicate hf]; decide
  · intro r hr
    simp only [Abs.vertsPadded, Abs.ofLists, List.zipWith_map_right, List.zipWith_self,
      List.mem_map] at hr
    obtain ⟨v, hv, rfl⟩ := hr
    have : v.length ≤ maxNat (verts.map List.length) := maxNat_ge (List.mem_map_of_mem hv)
    simp only [Abs.maxVerts, Abs.ofLists, List.length_append, List.length_replicate]
    omega

theorem inv_ofList (ops : Ops P K A E L) (verts : List (List P)) (faces : List (List Face))
    (hlen : faces.length = verts.length)
    (hne : ∃ i, ∃ (h : i < verts.length), verts[i] ≠ [] ∧
      (faces[i]'(by omega)).filter Face.real ≠ []) :
    Inv ops (Abs.ofLists ops.zero verts (faces.map (fun f => f.filter Face.real)))
      (ofList verts faces : State P A E L) := by
  set fl := faces.map (fun f => f.filter Face.real) with hfl
  have hlen' : fl.length = verts.length := by simp [hfl, hlen]
  have hreal : ∀ f ∈ fl, ∀ t ∈ f, Face.real t = true := by
    intro f hf t ht
    obtain ⟨g, _, rfl⟩ := List.mem_map.mp hf
    exact (List.mem_filter.mp ht).2
  have hne' : ∃ i, ∃ (h : i < verts.length), verts[i] ≠ [] ∧ fl[i]'(by omega) ≠ [] := by
    obtain ⟨i, hi, h1, h2⟩ := hne
    exact ⟨i, hi, h1, by simpa [hfl] using h2⟩
  have hwf := ofLists_wf ops.zero verts fl hlen' hne' hreal
  have hvalid : (List.zipWith (fun v f => decide (0 < v ∧ 0 < f)) (verts.map List.length)
      (fl.map List.length)).any id = true := by
    obtain ⟨i, hi, h1, h2⟩ := hne'
    rw [List.any_eq_true]
    refine ⟨true, ?_, rfl⟩
    rw [List.mem_iff_getElem]
    refine ⟨i, by simp [hi, hlen'], ?_⟩
    simp only [List.getElem_zipWith, List.getElem_map, decide_eq_true_eq]
    exact ⟨List.length_pos_iff.mpr h1, List.length_pos_iff.mpr h2⟩
  have hnotempty : isEmptyBatch ({
    N := verts.length
    V := maxNat (verts.map List.length)
    F := maxNat (fl.map List.length)
    valid := List.zipWith (fun v f => decide (0 < v ∧ 0 < f)) (verts.map List.length)
      (fl.map List.length)
    equisized := allSame (verts.map List.length) && allSame (fl.map List.length)
    vertsList := some verts
    facesList := some fl
    vertsPadded := none
    facesPadded := none
    numVerts := verts.map List.length
    numFaces := fl.map List.length
    packed := none
    padToPacked := none
    edges := none
    areas := none
    vnormals := none
    lap := none } : State P A E L) = false := by
    simp only [isEmptyBatch, Bool.or_eq_false_iff, beq_eq_false_iff_ne, ne_eq]
    refine ⟨fun hc => hwf.ne_nil (List.length_eq_zero_iff.mp hc), ?_⟩
    rw [Bool.eq_false_iff]
    intro hc
    rw [List.any_eq_true] at hvalid
    obtain ⟨b, hb, hbt⟩ := hvalid
    have := List.all_eq_true.mp hc b hb
    simp at hbt
    simp [hbt] at this
  simp only [ofList, ← hfl, resetCounts, hnotempty, Bool.false_eq_true, if_false]
  exact {
    wf := hwf
    hN := rfl, hV := rfl, hF := rfl
    hvalid := hvalid
    hnv := rfl, hnf := rfl
    heq := fun h => (Bool.and_eq_true _ _ ▸ h : _ ∧ _)
    hvl := coh_some _, hfl := coh_some _, hvp := coh_none _, hfp := coh_none _
    hboth := rfl
    hdata := fun _ => ⟨rfl, rfl, rfl, rfl⟩
    hpk := coh_none _, hpp := coh_none _, hed := coh_none _, hlap := coh_none _
    har := coh_none _, hvn := fun _ _ => coh_none _
    hun := fun n h => by simp [Abs.ofLists] at h }

end P3D.Meshes
