/-
What `clip_faces` guarantees: the clipped triangles cover exactly the part of every face in front of
the plane, fragments are mapped back to the right point of the right face, the tables per mesh and
the table of neighbours are right.  What the culling test really tests.
-/
import Verif.Clip
import Mathlib.Analysis.Calculus.Deriv.Mul
import Mathlib.Analysis.Calculus.Deriv.Add

set_option linter.unusedSectionVars false
set_option linter.unusedSimpArgs false

namespace P3D.Clip

variable {K : Type} [Field K] [LinearOrder K] [IsStrictOrderedRing K]

theorem row_get {fs : List (Tri K)} {u : Nat} {f : Tri K} (h : fs[u]? = some f) : u < fs.length ∧ row fs u = f := by
  have hu := (List.getElem?_eq_some_iff.mp h).1
  refine ⟨hu, ?_⟩
  rw [row, List.getD_eq_getElem?_getD, h]; rfl

theorem get_row {fs : List (Tri K)} {u : Nat} (h : u < fs.length) : fs[u]? = some (row fs u) := by
  simp [row, h]

/-- Every member of `parts` is a part. -/
theorem parts_part {fr : Frustum K} (hp : ∀ c, fr.perspective = true → fr.zclip = some c → c ≠ 0) {f : Tri K}
    {p : Tri K × Option (Tri K)} (h : p ∈ parts fr f) :
    culled fr f = false ∧ Part fr.zclip fr.perspective f p.1 (p.2.getD one) := by
  rcases parts_cases fr f with ⟨-, -, -, -, e, hc, hz⟩ | ⟨-, -, -, -, e, -⟩ | ⟨-, -, -, -, hcu, c, i, hc, -, h1, h2, h3, e⟩ |
    ⟨-, -, -, -, hcu, c, i, hc, -, h1, h2, h3, e⟩
  · rw [e] at h
    obtain rfl := List.mem_singleton.mp h
    exact ⟨hc, part_one hz⟩
  · rw [e] at h; simp at h
  · rw [e] at h
    obtain rfl := List.mem_singleton.mp h
    rw [hc]
    exact ⟨hcu, case3_part (fun h => hp c h hc) h1 h2 h3⟩
  · rw [e] at h
    rw [hc]
    have := case4_part (fun h => hp c h hc) h1 h2 h3
    simp only [List.mem_cons, List.not_mem_nil, or_false] at h
    rcases h with rfl | rfl
    · exact ⟨hcu, this.1⟩
    · exact ⟨hcu, this.2⟩

theorem parts_cover {fr : Frustum K} {f : Tri K} (hcu : culled fr f = false) {b : V3 K} (hb : Simplex b)
    (hz : ∀ c, fr.zclip = some c → c ≤ (interp f b).z) :
    ∃ (s : Nat) (p : Tri K × Option (Tri K)), (parts fr f)[s]? = some p ∧ ∃ w, Simplex w ∧ interp (p.2.getD one) w = b := by
  rcases parts_cases fr f with ⟨-, -, -, -, e, -, -⟩ | ⟨-, -, -, -, -, h⟩ | ⟨-, -, -, -, -, c, i, hc, -, h1, h2, h3, e⟩ |
    ⟨-, -, -, -, -, c, i, hc, -, h1, h2, h3, e⟩
  · rw [e]; exact ⟨0, _, rfl, b, hb, interp_one b⟩
  · exfalso
    rcases h with h | ⟨c, hc, h⟩
    · rw [hcu] at h; simp at h
    · have := hz c hc
      obtain ⟨n1, n2, n3, hs⟩ := hb
      simp only [interp, V3.add_z, V3.smul_z] at this
      have t0 := mul_nonneg n1 (sub_pos.mpr (h 0)).le
      have t1 := mul_nonneg n2 (sub_pos.mpr (h 1)).le
      have t2 := mul_nonneg n3 (sub_pos.mpr (h 2)).le
      have hc1 : (b.x + b.y + b.z) * c = c := by rw [hs, one_mul]
      have z0 : b.x * (c - (f 0).z) = 0 := by linarith
      have z1 : b.y * (c - (f 1).z) = 0 := by linarith
      have z2 : b.z * (c - (f 2).z) = 0 := by linarith
      have x0 : b.x = 0 := (mul_eq_zero.mp z0).resolve_right (sub_pos.mpr (h 0)).ne'
      have x1 : b.y = 0 := (mul_eq_zero.mp z1).resolve_right (sub_pos.mpr (h 1)).ne'
      have x2 : b.z = 0 := (mul_eq_zero.mp z2).resolve_right (sub_pos.mpr (h 2)).ne'
      rw [x0, x1, x2] at hs
      simp at hs
  · obtain ⟨w, hw, hwb⟩ := case3_cover (persp := fr.perspective) h1 h2 h3 hb (hz c hc)
    rw [e]; exact ⟨0, _, rfl, w, hw, hwb⟩
  · rcases case4_cover (persp := fr.perspective) h1 h2 h3 hb (hz c hc) with ⟨w, hw, hwb⟩ | ⟨w, hw, hwb⟩
    · rw [e]; exact ⟨0, _, rfl, w, hw, hwb⟩
    · rw [e]; exact ⟨1, _, rfl, w, hw, hwb⟩

theorem interp_ext {m m' : Tri K} (h : ∀ w, interp m w = interp m' w) : m = m' := by
  funext k
  fin_cases k
  · have := h ⟨1, 0, 0⟩
    simpa [interp] using this
  · have := h ⟨0, 1, 0⟩
    simpa [interp] using this
  · have := h ⟨0, 0, 1⟩
    simpa [interp] using this

/-- The face of the original meshes to which a clipped face is mapped back. -/
def faceOf (r : Clipped K) (j : Nat) : Option Int := (convert r j 0).map Prod.fst

section
variable {sh : ∀ α : Type, List α → List α} (hsh : ∀ α l, (sh α l).Perm l) {fr : Frustum K} {fs : List (Tri K)} {num : List Nat}
  (hnum : num.sum = fs.length) {r : Clipped K} (h : clipFaces sh fr fs (firsts num) (num.map fun (n : Nat) => (n : Int)) = .ok r)

include hsh hnum h in
theorem entry_of {j : Nat} (hj : j < r.faceVerts.length) : ∃ e, (flat fr fs fs.length)[j]? = some e := by
  rw [(clipFaces_desc hsh hnum h).1, List.length_map] at hj
  exact ⟨_, List.getElem?_eq_getElem hj⟩

include hsh hnum h in
/-- Every clipped triangle is the part described by its conversion of one of the faces that are not culled. -/
theorem clip_parts (hp : ∀ c, fr.perspective = true → fr.zclip = some c → c ≠ 0) {j : Nat} {t : Tri K} (ht : r.faceVerts[j]? = some t) :
    ∃ (u : Nat) (f m : Tri K), fs[u]? = some f ∧ culled fr f = false ∧ Part fr.zclip fr.perspective f t m ∧
      ∀ w, convert r j w = some ((u : Int), interp m w) := by
  obtain ⟨hv, hc, -, -⟩ := clipFaces_desc hsh hnum h
  rw [hv, List.getElem?_map] at ht
  obtain ⟨e, he, rfl⟩ := Option.map_eq_some_iff.mp ht
  obtain ⟨hu, hpt, -⟩ := flat_mem fr fs he
  obtain ⟨h1, h2⟩ := parts_part hp (List.mem_of_getElem? hpt)
  exact ⟨e.1, row fs e.1, _, get_row hu, h1, h2, hc j e he⟩

include hsh hnum h in
/-- Rendered attributes are right: weights `w` in clipped triangle `j` and the converted weights denote the same point,
a point of the original face in front of the plane. -/
theorem clip_point (hp : ∀ c, fr.perspective = true → fr.zclip = some c → c ≠ 0) {j : Nat} {t : Tri K} (ht : r.faceVerts[j]? = some t)
    (w : V3 K) : ∃ (u : Nat) (f : Tri K) (b : V3 K), fs[u]? = some f ∧ convert r j w = some ((u : Int), b) ∧
      interp (fun k => world fr.perspective (t k)) w = interp (fun k => world fr.perspective (f k)) b ∧
      (Simplex w → Simplex b ∧ ∀ c, fr.zclip = some c → c ≤ (interp f b).z) := by
  obtain ⟨u, f, m, hf, -, hpart, hc⟩ := clip_parts hsh hnum h hp ht
  exact ⟨u, f, _, hf, hc w, hpart.interp_eq w, fun hw => hpart.weights hw⟩

include hsh hnum h in
/-- Nothing in front of the plane is lost. -/
theorem clip_cover {u : Nat} {f : Tri K} (hf : fs[u]? = some f) (hcu : culled fr f = false) {b : V3 K} (hb : Simplex b)
    (hz : ∀ c, fr.zclip = some c → c ≤ (interp f b).z) :
    ∃ j, j < r.faceVerts.length ∧ ∃ w, Simplex w ∧ convert r j w = some ((u : Int), b) := by
  obtain ⟨hv, hc, -, -⟩ := clipFaces_desc hsh hnum h
  obtain ⟨hu, rfl⟩ := row_get hf
  obtain ⟨s, p, hsp, w, hw, hwb⟩ := parts_cover hcu hb hz
  have hfl := flat_get fr fs hu hsp
  refine ⟨start fr fs u + s, ?_, w, hw, ?_⟩
  · rw [hv, List.length_map]; exact (List.getElem?_eq_some_iff.mp hfl).1
  · rw [hc _ _ hfl]; simp only [hwb]

include hsh hnum h in
/-- Two clipped triangles of one face have no inner point in common, unless both have no area. -/
theorem clip_disjoint {j j' : Nat} (hj : j < r.faceVerts.length) (hj' : j' < r.faceVerts.length) (hne : j ≠ j') {u : Int} {m m' : Tri K}
    (hm : ∀ w, convert r j w = some (u, interp m w)) (hm' : ∀ w, convert r j' w = some (u, interp m' w))
    (hd : det m ≠ 0 ∨ det m' ≠ 0) {w w' : V3 K} (hw : Inner w) (hw' : Inner w') : interp m w ≠ interp m' w' := by
  obtain ⟨hv, hc, -, -⟩ := clipFaces_desc hsh hnum h
  obtain ⟨e, he⟩ := entry_of hsh hnum h hj
  obtain ⟨e', he'⟩ := entry_of hsh hnum h hj'
  have x : ∀ w, ((e.1 : Int), interp (e.2.2.2.getD one) w) = (u, interp m w) := fun w => Option.some.inj ((hc j e he w).symm.trans (hm w))
  have x' : ∀ w, ((e'.1 : Int), interp (e'.2.2.2.getD one) w) = (u, interp m' w) := fun w => Option.some.inj ((hc j' e' he' w).symm.trans (hm' w))
  have hu : e.1 = e'.1 := by
    have a := (Prod.mk.inj (x 0)).1
    have b := (Prod.mk.inj (x' 0)).1
    omega
  obtain rfl := interp_ext fun w => (Prod.mk.inj (x w)).2
  obtain rfl := interp_ext fun w => (Prod.mk.inj (x' w)).2
  obtain ⟨hu1, hp1, rfl⟩ := flat_mem fr fs he
  obtain ⟨hu2, hp2, rfl⟩ := flat_mem fr fs he'
  obtain ⟨v, s, t, q⟩ := e
  obtain ⟨v', s', t', q'⟩ := e'
  simp only at hu hp1 hp2 hne hd hu1 ⊢
  subst hu
  have hss : s ≠ s' := fun hh => hne (by rw [hh])
  have hs1 := (List.getElem?_eq_some_iff.mp hp1).1
  have hs2 := (List.getElem?_eq_some_iff.mp hp2).1
  rcases parts_cases fr (row fs v) with ⟨-, -, -, -, hh, -⟩ | ⟨-, -, -, -, hh, -⟩ | ⟨-, -, -, -, -, _, _, -, -, -, -, -, hh⟩ |
    ⟨-, -, -, -, -, c, i, hcc, -, h1, h2, h3, hh⟩
  · rw [hh] at hs1 hs2; simp at hs1 hs2; omega
  · rw [hh] at hs1; simp at hs1
  · rw [hh] at hs1 hs2; simp at hs1 hs2; omega
  · rw [hh] at hs1 hs2 hp1 hp2
    intro hcontra
    obtain ⟨rfl, rfl⟩ | ⟨rfl, rfl⟩ : (s = 0 ∧ s' = 1) ∨ (s = 1 ∧ s' = 0) := by simp at hs1 hs2; omega
    · simp only [List.getElem?_cons_zero, List.getElem?_cons_succ, Option.some.injEq, Prod.mk.injEq] at hp1 hp2
      rw [← hp1.2, ← hp2.2] at hcontra hd
      simp only [Option.getD_some] at hcontra hd
      exact case4_disjoint h1 h2 h3 hd hw hw' hcontra
    · simp only [List.getElem?_cons_zero, List.getElem?_cons_succ, Option.some.injEq, Prod.mk.injEq] at hp1 hp2
      rw [← hp1.2, ← hp2.2] at hcontra hd
      simp only [Option.getD_some] at hcontra hd
      exact case4_disjoint h1 h2 h3 hd.symm hw' hw hcontra.symm

include hsh hnum h in
theorem faceOf_eq {j : Nat} {e} (he : (flat fr fs fs.length)[j]? = some e) : faceOf r j = some ((e.1 : Nat) : Int) := by
  rw [faceOf, (clipFaces_desc hsh hnum h).2.1 j e he]; rfl

include hsh hnum h in
/-- The clipped faces stay in the order of the original ones, and those of mesh `m` are the clipped faces of its faces. -/
theorem clip_meshes {m : Nat} (hm : m < num.length) : ∃ a n : Nat, r.firstIdx[m]? = some (a : Int) ∧ r.numFaces[m]? = some (n : Int) ∧
    a + n ≤ r.faceVerts.length ∧ ∀ j < r.faceVerts.length, ∃ u : Nat, faceOf r j = some (u : Int) ∧
      (a ≤ j ∧ j < a + n ↔ (num.take m).sum ≤ u ∧ u < (num.take (m + 1)).sum) := by
  obtain ⟨hv, -, hf, -⟩ := clipFaces_desc hsh hnum h
  obtain ⟨h1, h2⟩ := hf m hm
  have hle : (num.take m).sum ≤ (num.take (m + 1)).sum := by rw [List.take_add_one, List.sum_append]; omega
  have hleF : (num.take (m + 1)).sum ≤ fs.length := by
    rw [← hnum]; conv_rhs => rw [← List.take_append_drop (m + 1) num, List.sum_append]
    omega
  have hst := start_mono fr fs hle
  refine ⟨_, start fr fs (num.take (m + 1)).sum - start fr fs (num.take m).sum, h1, by rw [h2]; congr 1; omega, ?_, ?_⟩
  · rw [hv, List.length_map, flat_length]
    have := start_mono fr fs hleF
    omega
  · intro j hj
    obtain ⟨e, he⟩ := entry_of hsh hnum h hj
    refine ⟨e.1, faceOf_eq hsh hnum h he, ?_⟩
    obtain ⟨hu, hp, rfl⟩ := flat_mem fr fs he
    have hs := (List.getElem?_eq_some_iff.mp hp).1
    constructor
    · rintro ⟨x, y⟩
      constructor
      · by_contra hlt
        have := cell_lt fr fs (not_le.mp hlt) hs
        omega
      · by_contra hlt
        have := start_mono fr fs (not_lt.mp hlt)
        omega
    · rintro ⟨x, y⟩
      have := start_mono fr fs x
      have := cell_lt fr fs y hs
      omega

include hsh hnum h in
theorem clip_order {j j' : Nat} (hjj : j ≤ j') (hj' : j' < r.faceVerts.length) :
    ∃ u u' : Nat, faceOf r j = some (u : Int) ∧ faceOf r j' = some (u' : Int) ∧ u ≤ u' := by
  obtain ⟨e, he⟩ := entry_of hsh hnum h (lt_of_le_of_lt hjj hj')
  obtain ⟨e', he'⟩ := entry_of hsh hnum h hj'
  refine ⟨e.1, e'.1, faceOf_eq hsh hnum h he, faceOf_eq hsh hnum h he', ?_⟩
  obtain ⟨hu, hp, rfl⟩ := flat_mem fr fs he
  obtain ⟨hu', hp', rfl⟩ := flat_mem fr fs he'
  by_contra hlt
  have := cell_lt fr fs (not_le.mp hlt) (List.getElem?_eq_some_iff.mp hp').1
  omega

include hsh hnum h in
/-- The neighbour of a clipped face is the other one made of the same face. -/
theorem clip_neighbor {j j' : Nat} (hj : j < r.faceVerts.length) (hj' : j' < r.faceVerts.length) :
    (∃ nb, r.neighbor = some nb ∧ nb[j]? = some (j' : Int)) ↔ j ≠ j' ∧ faceOf r j = faceOf r j' := by
  obtain ⟨hv, -, -, hn⟩ := clipFaces_desc hsh hnum h
  obtain ⟨e, he⟩ := entry_of hsh hnum h hj
  obtain ⟨e', he'⟩ := entry_of hsh hnum h hj'
  rw [faceOf_eq hsh hnum h he, faceOf_eq hsh hnum h he']
  obtain ⟨hu, hp, hje⟩ := flat_mem fr fs he
  obtain ⟨hu', hp', hje'⟩ := flat_mem fr fs he'
  have hs := (List.getElem?_eq_some_iff.mp hp).1
  have hs' := (List.getElem?_eq_some_iff.mp hp').1
  -- only case 4 has two triangles
  have htwo : ∀ u, is4 fr (row fs u) = false → (parts fr (row fs u)).length ≤ 1 := by
    intro u h4
    rcases parts_cases fr (row fs u) with ⟨-, -, -, -, hh, -⟩ | ⟨-, -, -, -, hh, -⟩ | ⟨-, -, -, -, -, _, _, -, -, -, -, -, hh⟩ |
      ⟨-, -, -, h4', -⟩
    · simp [hh]
    · simp [hh]
    · simp [hh]
    · rw [h4] at h4'; simp at h4'
  have hfour : ∀ u, is4 fr (row fs u) = true → (parts fr (row fs u)).length = 2 := by
    intro u h4
    rcases parts_cases fr (row fs u) with ⟨-, -, -, h4', -⟩ | ⟨-, -, -, h4', -⟩ | ⟨-, -, -, h4', -⟩ | ⟨-, -, -, -, -, _, _, -, -, -, -, -, hh⟩
    · rw [h4] at h4'; simp at h4'
    · rw [h4] at h4'; simp at h4'
    · rw [h4] at h4'; simp at h4'
    · simp [hh]
  constructor
  · rintro ⟨nb, hnb, hx⟩
    rcases hn with ⟨hn, -⟩ | ⟨nb', hn, -, hval⟩
    · rw [hn] at hnb; simp at hnb
    · rw [hn] at hnb
      cases hnb
      rw [hval j e he, nbOf] at hx
      by_cases h4 : is4 fr (row fs e.1) = true
      · rw [if_pos h4] at hx
        have hlen := hfour _ h4
        have hx : start fr fs e.1 + (1 - e.2.1) = start fr fs e'.1 + e'.2.1 := by
          have := Option.some.inj hx
          omega
        obtain ⟨a, b⟩ := cell_inj fr fs (by omega) hs' hx
        exact ⟨by omega, by rw [a]⟩
      · rw [if_neg h4] at hx
        have := Option.some.inj hx
        omega
  · rintro ⟨hne, hf⟩
    have hf : e.1 = e'.1 := by
      have := Option.some.inj hf
      omega
    have h4 : is4 fr (row fs e.1) = true := by
      by_contra h4
      have := htwo e.1 (by simpa using h4)
      rw [← hf] at hs' hje'
      omega
    rcases hn with ⟨-, hn⟩ | ⟨nb, hn, -, hval⟩
    · rw [hn _ hu] at h4; simp at h4
    · refine ⟨nb, hn, ?_⟩
      rw [hval j e he, nbOf, if_pos h4]
      have hlen := hfour _ h4
      rw [← hf] at hs' hje'
      congr 2
      omega

end

/-- `clip_faces` fails exactly if something is clipped or culled and the last mesh has no faces: then
`mesh_to_face_first_idx` contains `F`, which is not an index of `faces_unclipped_to_clipped_idx`. -/
theorem clip_error {sh : ∀ α : Type, List α → List α} (hsh : ∀ α l, (sh α l).Perm l) {fr : Frustum K} {fs : List (Tri K)} {num : List Nat}
    (hnum : num.sum = fs.length) (e : Err) :
    clipFaces sh fr fs (firsts num) (num.map fun (n : Nat) => (n : Int)) = .error e ↔
      e = .index ∧ num.getLast? = some 0 ∧ ∃ f ∈ fs, culled fr f = true ∨ ∃ c k, fr.zclip = some c ∧ (f k).z < c := by
  have hcond : (∃ f ∈ fs, culled fr f = true ∨ ∃ c k, fr.zclip = some c ∧ (f k).z < c) ↔ ¬ ∀ u < fs.length, is1 fr (row fs u) = true := by
    constructor
    · rintro ⟨f, hf, hh⟩ hall
      obtain ⟨u, hu, rfl⟩ := List.getElem_of_mem hf
      have h1 := hall u hu
      have hr : row fs u = fs[u] := by simp [row, hu]
      rw [hr] at h1
      rcases parts_cases fr fs[u] with ⟨-, -, -, -, -, hcu, hz⟩ | ⟨h1', -⟩ | ⟨h1', -⟩ | ⟨h1', -⟩
      · rcases hh with hh | ⟨c, k, hc, hk⟩
        · rw [hcu] at hh; simp at hh
        · exact absurd (hz c hc k) (not_le.mpr hk)
      all_goals rw [h1] at h1'; simp at h1'
    · intro hh
      push Not at hh
      obtain ⟨u, hu, h1⟩ := hh
      refine ⟨row fs u, List.mem_of_getElem? (get_row hu), ?_⟩
      rcases parts_cases fr (row fs u) with ⟨h1', -⟩ | ⟨-, -, -, -, -, hh⟩ | ⟨-, -, -, -, -, c, i, hc, -, -, h2, -⟩ | ⟨-, -, -, -, -, c, i, hc, -, h2, -⟩
      · exact absurd h1' h1
      · rcases hh with hh | ⟨c, hc, hk⟩
        · exact Or.inl hh
        · exact Or.inr ⟨c, 0, hc, hk 0⟩
      · exact Or.inr ⟨c, _, hc, h2⟩
      · exact Or.inr ⟨c, _, hc, h2⟩
  rw [hcond]
  by_cases hq : ∀ u < fs.length, is1 fr (row fs u) = true
  · constructor
    · intro h
      unfold clipFaces at h
      rw [if_pos ((quiet_iff fr fs).mpr hq)] at h
      simp at h
    · rintro ⟨-, -, hn⟩; exact absurd hq hn
  · have hFpos : 0 < fs.length := by
      by_contra h0
      exact hq fun u hu => by omega
    have hlast : (∃ i ∈ firsts num, ¬ i.toNat < fs.length) ↔ num.getLast? = some 0 := by
      constructor
      · rintro ⟨i, hi, hge⟩
        obtain ⟨m, hm, rfl⟩ := List.mem_map.mp hi
        have hm := List.mem_range.mp hm
        rw [Int.toNat_natCast] at hge
        rcases List.eq_nil_or_concat num with rfl | ⟨l, x, rfl⟩
        · simp at hm
        · rw [List.concat_eq_append] at *
          rw [List.length_append, List.length_singleton] at hm
          rw [List.take_append_of_le_length (by omega)] at hge
          have : (l.take m).sum ≤ l.sum := by
            conv_rhs => rw [← List.take_append_drop m l, List.sum_append]
            omega
          rw [List.sum_append, List.sum_singleton] at hnum
          obtain rfl : x = 0 := by omega
          simp
      · intro hl
        rcases List.eq_nil_or_concat num with rfl | ⟨l, x, rfl⟩
        · simp at hl
        · rw [List.concat_eq_append] at *
          obtain rfl : x = 0 := by simpa using hl
          refine ⟨((l.sum : Nat) : Int), List.mem_map.mpr ⟨l.length, by simp, ?_⟩, ?_⟩
          · rw [List.take_append_of_le_length le_rfl, List.take_length]
          · rw [Int.toNat_natCast]; rw [List.sum_append, List.sum_singleton] at hnum; omega
    by_cases hf : ∀ i ∈ firsts num, i.toNat < fs.length
    · obtain ⟨r, hr, -⟩ := clipFaces_ok hsh hq (firsts num) (num.map fun (n : Nat) => (n : Int)) hf
      rw [hr]
      constructor
      · intro h; simp at h
      · rintro ⟨-, hl, -⟩
        obtain ⟨i, hi, hx⟩ := hlast.mpr hl
        exact absurd (hf i hi) hx
    · unfold clipFaces
      rw [if_neg (mt (quiet_iff fr fs).mp hq)]
      simp only
      rw [mapM_get, if_neg (by rw [offsets_length]; exact hf)]
      simp only [Except.error.injEq]
      push Not at hf
      constructor
      · rintro rfl
        exact ⟨rfl, hlast.mp (by obtain ⟨i, hi, hx⟩ := hf; exact ⟨i, hi, not_lt.mpr hx⟩), hq⟩
      · rintro ⟨rfl, -⟩; rfl

/-- Background entries stay background entries. -/
theorem convert_background {sh : ∀ α : Type, List α → List α} (hsh : ∀ α l, (sh α l).Perm l) {fr : Frustum K} {fs : List (Tri K)}
    {first num : List Int} (hf : ∀ i ∈ first, i.toNat < fs.length) {r : Clipped K} (h : clipFaces sh fr fs first num = .ok r) (w : V3 K) :
    convert r (-1) w = some (-1, w) := by
  by_cases hq : ∀ u < fs.length, is1 fr (row fs u) = true
  · unfold clipFaces at h
    rw [if_pos ((quiet_iff fr fs).mpr hq)] at h
    cases h
    rfl
  · obtain ⟨r', hr', -, -, hres⟩ := clipFaces_ok hsh hq first num hf
    rw [h] at hr'
    cases hr'
    have hg : ∀ {α : Type} (l : List α), l.length ≠ 0 → ∃ x, pyGet l (-1) = some x := by
      intro α l hl
      unfold pyGet
      rw [if_pos (by omega)]
      exact ⟨_, List.getElem?_eq_getElem (by omega)⟩
    unfold convert
    rw [hres.back]
    simp only
    split
    · rfl
    · rename_i hl
      obtain ⟨x, hx⟩ := hg _ hl
      rw [hx]
      simp only [bind, Option.bind_some]
      rcases hres.tables with ⟨h1, h2, -⟩ | ⟨conv, ci, nb, h1, h2, -, hlen, -⟩
      · rw [h1, h2]; rfl
      · rw [h1, h2]
        obtain ⟨y, hy⟩ := hg ci (by rw [hlen]; rwa [List.length_map, flat_length] at hl)
        simp [hy]

/-! ### Culling -/

/-- Vertex `v` of a face is beyond the bound `c` in *all three* coordinates. -/
def AllBelow (f : Tri K) (v : Fin 3) (c : K) : Prop := (f v).x < c ∧ (f v).y < c ∧ (f v).z < c
def AllAbove (f : Tri K) (v : Fin 3) (c : K) : Prop := c < (f v).x ∧ c < (f v).y ∧ c < (f v).z

theorem cullPlane_lt (f : Tri K) (o : Option K) (v : Fin 3) : cullPlane f (o, v, true) = true ↔ ∃ c, o = some c ∧ AllBelow f v c := by
  cases o with
  | none => simp [cullPlane]
  | some c =>
    simp only [cullPlane, AllBelow, if_true]
    by_cases h1 : (f v).x < c <;> by_cases h2 : (f v).y < c <;> by_cases h3 : (f v).z < c <;> simp [h1, h2, h3]

theorem cullPlane_gt (f : Tri K) (o : Option K) (v : Fin 3) : cullPlane f (o, v, false) = true ↔ ∃ c, o = some c ∧ AllAbove f v c := by
  cases o with
  | none => simp [cullPlane]
  | some c =>
    simp only [cullPlane, AllAbove]
    by_cases h1 : c < (f v).x <;> by_cases h2 : c < (f v).y <;> by_cases h3 : c < (f v).z <;> simp [h1, h2, h3]

/-- What `_get_culled_faces` tests: not, as documented, all three vertices against one coordinate, but all
three coordinates of one vertex. -/
theorem culled_iff (fr : Frustum K) (f : Tri K) : culled fr f = true ↔ fr.cull = true ∧
    ((∃ c, fr.left = some c ∧ AllBelow f 0 c) ∨ (∃ c, fr.right = some c ∧ AllAbove f 0 c) ∨
     (∃ c, fr.top = some c ∧ AllBelow f 1 c) ∨ (∃ c, fr.bottom = some c ∧ AllAbove f 1 c) ∨
     (∃ c, fr.znear = some c ∧ AllBelow f 2 c) ∨ (∃ c, fr.zfar = some c ∧ AllAbove f 2 c)) := by
  simp only [culled, Bool.and_eq_true, List.any_cons, List.any_nil, Bool.or_eq_true, Bool.or_false, cullPlane_lt, cullPlane_gt]

/-- The view frustum: what is documented to be kept. -/
def InFrustum (fr : Frustum K) (p : V3 K) : Prop :=
  (∀ c, fr.left = some c → c ≤ p.x) ∧ (∀ c, fr.right = some c → p.x ≤ c) ∧ (∀ c, fr.top = some c → c ≤ p.y) ∧
  (∀ c, fr.bottom = some c → p.y ≤ c) ∧ (∀ c, fr.znear = some c → c ≤ p.z) ∧ (∀ c, fr.zfar = some c → p.z ≤ c)

/-- A face with all vertices in the frustum is kept. -/
theorem cull_keeps {fr : Frustum K} {f : Tri K} (h : ∀ k, InFrustum fr (f k)) : culled fr f = false := by
  by_contra hc
  obtain ⟨-, hc⟩ := (culled_iff fr f).mp (by simpa using hc)
  rcases hc with ⟨c, e, x, y, z⟩ | ⟨c, e, x, y, z⟩ | ⟨c, e, x, y, z⟩ | ⟨c, e, x, y, z⟩ | ⟨c, e, x, y, z⟩ | ⟨c, e, x, y, z⟩
  · exact absurd ((h 0).1 c e) (not_le.mpr x)
  · exact absurd ((h 0).2.1 c e) (not_le.mpr x)
  · exact absurd ((h 1).2.2.1 c e) (not_le.mpr y)
  · exact absurd ((h 1).2.2.2.1 c e) (not_le.mpr y)
  · exact absurd ((h 2).2.2.2.2.1 c e) (not_le.mpr z)
  · exact absurd ((h 2).2.2.2.2.2 c e) (not_le.mpr z)

/-- The frustum used by `rasterize_meshes` with `cull_to_frustum=True` (rasterize_meshes.py:164-172). -/
def rasterFrustum (persp : Bool) (zclip : Option K) : Frustum K :=
  { left := some (-1), right := some 1, top := some (-1), bottom := some 1, perspective := persp, zclip := zclip }

/-- The face of the witness below: around the optical axis, at distance 5. -/
def bigFace : Tri K := tri ⟨2, 2, 5⟩ ⟨-2, 0, 5⟩ ⟨0, -2, 5⟩

/-- With `cull_to_frustum=True` faces disappear that are in view: this one contains the centre of the image. -/
theorem cull_drops_visible (persp : Bool) (z : Option K) :
    culled (rasterFrustum persp z) (bigFace (K := K)) = true ∧
    ∃ b : V3 K, Inner b ∧ Simplex b ∧ interp bigFace b = ⟨0, 0, 5⟩ ∧ InFrustum (rasterFrustum persp z) (interp bigFace b) := by
  have h1 : (1 : K) < 2 := by norm_num
  have h2 : (1 : K) < 5 := by norm_num
  have e : interp (bigFace (K := K)) ⟨1 / 3, 1 / 3, 1 / 3⟩ = ⟨0, 0, 5⟩ := by
    ext <;> simp [interp, bigFace, tri]
    · norm_num
  refine ⟨(culled_iff _ _).mpr ⟨rfl, Or.inr (Or.inl ⟨1, rfl, h1, h1, h2⟩)⟩, ⟨1 / 3, 1 / 3, 1 / 3⟩, ?_, ?_, e, ?_⟩
  · refine ⟨?_, ?_, ?_⟩ <;> norm_num
  · refine ⟨?_, ?_, ?_, ?_⟩ <;> norm_num
  · rw [e]
    simp [InFrustum, rasterFrustum]

/-- And no face in front of the camera is ever culled at the left or the top. -/
theorem cull_left_top_dead (persp : Bool) (z : Option K) {f : Tri K} (hz : ∀ k, 0 < (f k).z) (h : culled (rasterFrustum persp z) f = true) :
    AllAbove f 0 1 ∨ AllAbove f 1 1 := by
  obtain ⟨-, hc⟩ := (culled_iff _ _).mp h
  have h0 := hz 0
  have h1 := hz 1
  rcases hc with ⟨c, e, x, y, z'⟩ | ⟨c, e, x⟩ | ⟨c, e, x, y, z'⟩ | ⟨c, e, x⟩ | ⟨c, e, x⟩ | ⟨c, e, x⟩
  · simp only [rasterFrustum, Option.some.injEq] at e; subst e; linarith
  · simp only [rasterFrustum, Option.some.injEq] at e; subst e; exact Or.inl x
  · simp only [rasterFrustum, Option.some.injEq] at e; subst e; linarith
  · simp only [rasterFrustum, Option.some.injEq] at e; subst e; exact Or.inr x
  · simp [rasterFrustum] at e
  · simp [rasterFrustum] at e

/-! ### The gradient of the intersection points -/

/-- `p5` with the weight detached (clip.py:286): the function that is differentiated. -/
def meetFrozen (w : K) (p q : V3 K) : V3 K := (1 - w) • p + w • q

/-- The depth of `p5` is always `z_clip_value`, so its derivative is zero; the derivative computed with the detached
weight is `1 - w3`.  (For `p4`, whose weight is not detached, it is zero.) -/
theorem detach_gradient {c : ℝ} {p q : V3 ℝ} (h : p.z ≠ q.z) :
    HasDerivAt (fun t : ℝ => (meet c false ⟨p.x, p.y, p.z + t⟩ q).z) 0 0 ∧
    HasDerivAt (fun t : ℝ => (meetFrozen (weight c p q) ⟨p.x, p.y, p.z + t⟩ q).z) (1 - weight c p q) 0 := by
  constructor
  · have hcont : ∀ᶠ t : ℝ in nhds 0, p.z + t ≠ q.z := by
      have : ContinuousAt (fun t : ℝ => p.z + t) 0 := by fun_prop
      exact this.eventually_ne (by simpa using h)
    refine (hasDerivAt_const (0 : ℝ) c).congr_of_eventuallyEq ?_
    filter_upwards [hcont] with t ht
    exact meet_z (p := ⟨p.x, p.y, p.z + t⟩) ht false
  · have : HasDerivAt (fun t : ℝ => (1 - weight c p q) * (p.z + t) + weight c p q * q.z) ((1 - weight c p q) * (0 + 1) + 0) 0 :=
      (((hasDerivAt_const (0 : ℝ) p.z).add (hasDerivAt_id (0 : ℝ))).const_mul _).add (hasDerivAt_const (0 : ℝ) _)
    rw [zero_add, mul_one, add_zero] at this
    exact this

/-! ### Examples -/

/-- A face with one vertex behind the plane `z = 1`, one face untouched and one with two vertices behind. -/
def exFaces : List (Tri Rat) :=
  [tri ⟨0, 0, 0⟩ ⟨2, 0, 2⟩ ⟨0, 2, 3⟩, tri ⟨0, 0, 2⟩ ⟨1, 0, 2⟩ ⟨0, 1, 2⟩, tri ⟨0, 0, 3⟩ ⟨1, 0, 0⟩ ⟨0, 1, -1⟩, tri ⟨0, 0, 0⟩ ⟨1, 0, 0⟩ ⟨0, 1, 0⟩]

def exFr : Frustum Rat := { zclip := some 1, cull := false }

example : ((clipFaces (fun _ l => l) exFr exFaces (firsts [1, 3]) [1, 3]).toOption.map fun r =>
    [some (r.faceVerts.length :: r.toUnclipped.getD []) |>.map (·.map Int.ofNat), some r.firstIdx, some r.numFaces, r.convIdx, r.neighbor]) =
    some [some [4, 0, 0, 1, 2], some [0, 2], some [2, 2], some [1, 2, -1, 0], some [1, 0, -1, -1]] := by
  decide +kernel

example : ((clipFaces (fun _ l => l.reverse) exFr exFaces (firsts [1, 3]) [1, 3]).toOption.bind fun r => convert r 3 ⟨1/2, 1/4, 1/4⟩) =
    some (2, ⟨1/2 * (1/3) + 1/4 * (1/2) + 1/4, 1/2 * (2/3), 1/4 * (1/2)⟩) := by
  decide +kernel

example : (clipFaces (fun _ l => l) exFr exFaces (firsts [4, 0]) [4, 0]).toOption.isNone := by decide +kernel

example : culled (rasterFrustum true none) (bigFace (K := Rat)) = true := by decide +kernel

end P3D.Clip
