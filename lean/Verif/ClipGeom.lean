/-
Clipping one triangle at `z = z_clip_value` (`pytorch3d/renderer/mesh/clip.py`): the vertices of the
clipped triangles, their barycentric coordinates in the original triangle, and the culling test.
The geometry: which part of the original triangle the clipped triangles cover.
-/
import Verif.Vec3
import Mathlib.Algebra.Order.Field.Basic
import Mathlib.Tactic.FinCases
import Mathlib.Tactic.FieldSimp
import Mathlib.Tactic.Linarith
import Mathlib.Data.Fintype.Pi

set_option linter.unusedSectionVars false
set_option linter.unusedSimpArgs false
set_option linter.unnecessarySeqFocus false

namespace P3D.Clip

/-- One row of `face_verts` (`(F, 3, 3)`): the three vertices of a face.  Also used for a
`(3, 3)` slice of `barycentric_conversion`, whose column `k` is entry `k`. -/
abbrev Tri (K : Type) := Fin 3 → V3 K

/-- clip.py:99-156 `ClipFrustum`. -/
structure Frustum (K : Type) where
  left : Option K := none
  right : Option K := none
  top : Option K := none
  bottom : Option K := none
  znear : Option K := none
  zfar : Option K := none
  perspective : Bool := false
  cull : Bool := true
  zclip : Option K := none

variable {K : Type} [Field K] [LinearOrder K] [IsStrictOrderedRing K]

/-- Write entry `i` of a vector (`t[i] = c`). -/
def put (v : V3 K) (i : Fin 3) (c : K) : V3 K :=
  match i with
  | 0 => ⟨c, v.y, v.z⟩
  | 1 => ⟨v.x, c, v.z⟩
  | 2 => ⟨v.x, v.y, c⟩

/-- clip.py:188-195: one pass of the loop of `_get_culled_faces`.  `face_verts[:, axis]` is *vertex*
`axis` of each face, and the sum is over its three coordinates. -/
def cullPlane (f : Tri K) (plane : Option K × Fin 3 × Bool) : Bool :=
  match plane.1 with
  | none => false
  | some c =>
    let out := fun x : K => if plane.2.2 then decide (x < c) else decide (c < x)
    let v := f plane.2.1
    ((out v.x).toNat + (out v.y).toNat + (out v.z).toNat) == 3

/-- clip.py:159-200 `_get_culled_faces`, one face. -/
def culled (fr : Frustum K) (f : Tri K) : Bool :=
  fr.cull && ([(fr.left, 0, true), (fr.right, 0, false), (fr.top, 1, true), (fr.bottom, 1, false),
    (fr.znear, 2, true), (fr.zfar, 2, false)] : List (Option K × Fin 3 × Bool)).any (cullPlane f)

/-- clip.py:368-376: row of `faces_clipped_verts`. -/
def behind (c : K) (f : Tri K) (i : Fin 3) : Bool := decide ((f i).z < c)

/-- clip.py:377-379: entry of `faces_num_clipped_verts`. -/
def numBehind (zclip : Option K) (f : Tri K) : Nat :=
  match zclip with
  | some c => (behind c f 0).toNat + (behind c f 1).toNat + (behind c f 2).toNat
  | none => 0

/-- The five points of the diagrams in clip.py, or their barycentric coordinates. -/
structure Five (α : Type) where
  p1 : α
  p2 : α
  p3 : α
  p4 : α
  p5 : α

/-- clip.py:263-264 and 284-285: weight of the other end point. -/
def weight (c : K) (p q : V3 K) : K := (p.z - c) / (p.z - q.z)

/-- clip.py:264-276 and 285-295: the point where the edge meets the plane. -/
def meet (c : K) (persp : Bool) (p q : V3 K) : V3 K :=
  let w := weight c p q
  let r := (1 - w) • p + w • q
  if persp then
    ⟨(p.x * p.z * (1 - w) + q.x * q.z * w) / c, (p.y * p.z * (1 - w) + q.y * q.z * w) / c, r.z⟩
  else r

/-- clip.py:203-314 `_find_verts_intersecting_clipping_plane`, one triangle.  (`w3.detach()` only
matters for gradients.) -/
def findVerts (c : K) (persp : Bool) (f : Tri K) (i1 : Fin 3) : Five (V3 K) × Five (V3 K) :=
  let i2 := i1 + 1
  let i3 := i1 + 2
  let p1 := f i1
  let p2 := f i2
  let p3 := f i3
  let w2 := weight c p1 p2
  let w3 := weight c p1 p3
  (⟨p1, p2, p3, meet c persp p1 p2, meet c persp p1 p3⟩,
   ⟨put 0 i1 1, put 0 i2 1, put 0 i3 1, put (put 0 i1 (1 - w2)) i2 w2, put (put 0 i1 (1 - w3)) i3 w3⟩)

/-- `torch.stack((a, b, c), 1)`. -/
def tri {α : Type} (a b c : α) : Fin 3 → α
  | 0 => a
  | 1 => b
  | 2 => c

/-- clip.py:513-516: the clipped triangle of case 3 and its conversion matrix. -/
def case3 (q : Five (V3 K) × Five (V3 K)) : Tri K × Tri K :=
  (tri q.1.p4 q.1.p5 q.1.p1, tri q.2.p4 q.2.p5 q.2.p1)

/-- clip.py:562-565: the first triangle of case 4. -/
def case4a (q : Five (V3 K) × Five (V3 K)) : Tri K × Tri K :=
  (tri q.1.p4 q.1.p2 q.1.p5, tri q.2.p4 q.2.p2 q.2.p5)

/-- clip.py:562-566: the second triangle of case 4. -/
def case4b (q : Five (V3 K) × Five (V3 K)) : Tri K × Tri K :=
  (tri q.1.p5 q.1.p2 q.1.p3, tri q.2.p5 q.2.p2 q.2.p3)

/-! ### What it should mean -/

/-- The combination of three vectors with weights `w`. -/
def interp (f : Tri K) (w : V3 K) : V3 K := w.x • f 0 + w.y • f 1 + w.z • f 2

/-- Weights of a point of a triangle. -/
def Simplex (w : V3 K) : Prop := 0 ≤ w.x ∧ 0 ≤ w.y ∧ 0 ≤ w.z ∧ w.x + w.y + w.z = 1

/-- Weights of a point strictly inside a triangle. -/
def Inner (w : V3 K) : Prop := 0 < w.x ∧ 0 < w.y ∧ 0 < w.z

/-- Undo the perspective division of the first two coordinates. -/
def world (persp : Bool) (v : V3 K) : V3 K := if persp then ⟨v.x * v.z, v.y * v.z, v.z⟩ else v

/-- Determinant of the matrix with the given columns: signed area relative to the original. -/
def det (m : Tri K) : K := V3.dot (m 0) (V3.cross (m 1) (m 2))

/-- The matrix of a triangle that was not clipped. -/
def one : Tri K := tri ⟨1, 0, 0⟩ ⟨0, 1, 0⟩ ⟨0, 0, 1⟩

/-- `t` is a part of the triangle `f` in front of the plane, and `m` are its barycentric coordinates. -/
structure Part (zclip : Option K) (persp : Bool) (f : Tri K) (t m : Tri K) : Prop where
  /-- the corners are where the matrix says -/
  at_ : ∀ k, world persp (t k) = interp (fun i => world persp (f i)) (m k)
  /-- which is inside the original triangle -/
  inside : ∀ k, Simplex (m k)
  /-- in front of the plane -/
  front : ∀ c, zclip = some c → ∀ k, c ≤ (t k).z
  /-- with the same orientation -/
  orient : 0 ≤ det m

theorem meet_z {c : K} {p q : V3 K} (h : p.z ≠ q.z) (persp : Bool) : (meet c persp p q).z = c := by
  have h' : p.z - q.z ≠ 0 := sub_ne_zero.mpr h
  have : ((1 - weight c p q) • p + weight c p q • q).z = c := by
    simp only [weight, V3.add_z, V3.smul_z]
    field_simp
    ring
  unfold meet
  cases persp <;> simpa using this

theorem meet_world {c : K} {persp : Bool} {p q : V3 K} (h : p.z ≠ q.z) (hc : persp = true → c ≠ 0) :
    world persp (meet c persp p q) = (1 - weight c p q) • world persp p + weight c p q • world persp q := by
  have hz := meet_z (c := c) h persp
  cases persp with
  | false => simp [meet, world]
  | true =>
    have hc := hc rfl
    unfold world
    simp only [if_true]
    rw [hz]
    ext
    · simp [meet]; field_simp
    · simp [meet]; field_simp
    · simpa [meet] using hz.symm

theorem weight_front {c : K} {p q : V3 K} (hp : c ≤ p.z) (hq : q.z < c) : 0 ≤ weight c p q ∧ weight c p q ≤ 1 := by
  unfold weight
  have : 0 < p.z - q.z := by linarith
  refine ⟨div_nonneg (by linarith) this.le, ?_⟩
  rw [div_le_one this]; linarith

theorem weight_behind {c : K} {p q : V3 K} (hp : p.z < c) (hq : c ≤ q.z) : 0 < weight c p q ∧ weight c p q ≤ 1 := by
  have e : weight c p q = (c - p.z) / (q.z - p.z) := by
    unfold weight; rw [← neg_sub c p.z, ← neg_sub q.z p.z, neg_div_neg_eq]
  have : 0 < q.z - p.z := by linarith
  rw [e]
  refine ⟨div_pos (by linarith) this, ?_⟩
  rw [div_le_one this]; linarith

theorem weight_eq {c : K} {p q : V3 K} (h : p.z ≠ q.z) : weight c p q * (p.z - q.z) = p.z - c := by
  unfold weight; field_simp [sub_ne_zero.mpr h]

section rotate
/-! The three positions of the odd vertex. -/

/-- Value of the combination, from the odd vertex on. -/
theorem interp_rot (f : Tri K) (i : Fin 3) (a b c : K) :
    interp f (put (put (put 0 i a) (i + 1) b) (i + 2) c) = a • f i + b • f (i + 1) + c • f (i + 2) := by
  fin_cases i <;> ext <;> simp [interp, put] <;> ring

theorem simplex_rot (i : Fin 3) (a b c : K) :
    Simplex (put (put (put 0 i a) (i + 1) b) (i + 2) c) ↔ 0 ≤ a ∧ 0 ≤ b ∧ 0 ≤ c ∧ a + b + c = 1 := by
  fin_cases i <;> simp [Simplex, put]
  · constructor
    · rintro ⟨h1, h2, h3, h4⟩; exact ⟨h2, h3, h1, by rw [← h4]; ring⟩
    · rintro ⟨h1, h2, h3, h4⟩; exact ⟨h3, h1, h2, by rw [← h4]; ring⟩
  · constructor
    · rintro ⟨h1, h2, h3, h4⟩; exact ⟨h3, h1, h2, by rw [← h4]; ring⟩
    · rintro ⟨h1, h2, h3, h4⟩; exact ⟨h2, h3, h1, by rw [← h4]; ring⟩

theorem exists_rot (i : Fin 3) (v : V3 K) : ∃ a b c, v = put (put (put 0 i a) (i + 1) b) (i + 2) c := by
  fin_cases i
  · exact ⟨v.x, v.y, v.z, rfl⟩
  · exact ⟨v.y, v.z, v.x, rfl⟩
  · exact ⟨v.z, v.x, v.y, rfl⟩

theorem rot_inj (i : Fin 3) {a b c a' b' c' : K}
    (h : put (put (put 0 i a) (i + 1) b) (i + 2) c = put (put (put 0 i a') (i + 1) b') (i + 2) c') :
    a = a' ∧ b = b' ∧ c = c' := by
  fin_cases i <;> simp [put] at h <;> tauto

end rotate

/-- Weights `a, b, c` of the odd vertex `i` and of the two following it. -/
def rot (i : Fin 3) (a b c : K) : V3 K := put (put (put 0 i a) (i + 1) b) (i + 2) c

theorem findVerts_bary (c : K) (persp : Bool) (f : Tri K) (i : Fin 3) :
    (findVerts c persp f i).2 = ⟨rot i 1 0 0, rot i 0 1 0, rot i 0 0 1,
      rot i (1 - weight c (f i) (f (i + 1))) (weight c (f i) (f (i + 1))) 0,
      rot i (1 - weight c (f i) (f (i + 2))) 0 (weight c (f i) (f (i + 2)))⟩ := by
  fin_cases i <;> simp [findVerts, rot, put]

theorem interp_rot' (f : Tri K) (i : Fin 3) (a b c : K) : interp f (rot i a b c) = a • f i + b • f (i + 1) + c • f (i + 2) :=
  interp_rot f i a b c

theorem interp_tri_rot (i : Fin 3) (w : V3 K) (a b c a' b' c' a'' b'' c'' : K) :
    interp (tri (rot i a b c) (rot i a' b' c') (rot i a'' b'' c'')) w =
      rot i (w.x * a + w.y * a' + w.z * a'') (w.x * b + w.y * b' + w.z * b'') (w.x * c + w.y * c' + w.z * c'') := by
  fin_cases i <;> ext <;> simp [interp, tri, rot, put]

theorem det_tri_rot (i : Fin 3) (a b c a' b' c' a'' b'' c'' : K) :
    det (tri (rot i a b c) (rot i a' b' c') (rot i a'' b'' c'')) =
      det (tri (⟨a, b, c⟩ : V3 K) ⟨a', b', c'⟩ ⟨a'', b'', c''⟩) := by
  fin_cases i <;> simp [det, tri, rot, put, V3.dot, V3.cross] <;> ring

/-- Case 3: one vertex `i` in front of the plane. -/
theorem case3_part {c : K} {persp : Bool} {f : Tri K} {i : Fin 3} (hp : persp = true → c ≠ 0)
    (h1 : c ≤ (f i).z) (h2 : (f (i + 1)).z < c) (h3 : (f (i + 2)).z < c) :
    Part (some c) persp f (case3 (findVerts c persp f i)).1 (case3 (findVerts c persp f i)).2 := by
  have hb := findVerts_bary c persp f i
  have e2 : (f i).z ≠ (f (i + 1)).z := by intro h; linarith
  have e3 : (f i).z ≠ (f (i + 2)).z := by intro h; linarith
  obtain ⟨w2, w2'⟩ := weight_front h1 h2
  obtain ⟨w3, w3'⟩ := weight_front h1 h3
  have m2 := meet_world e2 hp
  have m3 := meet_world e3 hp
  constructor
  · intro k
    simp only [case3, hb]
    fin_cases k
    · simpa [tri, findVerts, interp_rot'] using m2
    · simpa [tri, findVerts, interp_rot'] using m3
    · simp [tri, findVerts, interp_rot']
  · intro k
    simp only [case3, hb]
    fin_cases k <;> simp only [tri] <;> refine (simplex_rot _ _ _ _).mpr ⟨?_, ?_, ?_, ?_⟩ <;> linarith
  · intro c' hc' k
    cases hc'
    fin_cases k
    · simpa [case3, tri, findVerts] using (meet_z e2 persp).ge
    · simpa [case3, tri, findVerts] using (meet_z e3 persp).ge
    · simpa [case3, tri, findVerts] using h1
  · simp only [case3, hb, det_tri_rot]
    simp [det, tri, V3.dot, V3.cross]
    exact mul_nonneg w2 w3

/-- Case 4: one vertex `i` behind the plane. -/
theorem case4_part {c : K} {persp : Bool} {f : Tri K} {i : Fin 3} (hp : persp = true → c ≠ 0)
    (h1 : (f i).z < c) (h2 : c ≤ (f (i + 1)).z) (h3 : c ≤ (f (i + 2)).z) :
    Part (some c) persp f (case4a (findVerts c persp f i)).1 (case4a (findVerts c persp f i)).2 ∧
    Part (some c) persp f (case4b (findVerts c persp f i)).1 (case4b (findVerts c persp f i)).2 := by
  have hb := findVerts_bary c persp f i
  have e2 : (f i).z ≠ (f (i + 1)).z := by intro h; linarith
  have e3 : (f i).z ≠ (f (i + 2)).z := by intro h; linarith
  obtain ⟨w2, w2'⟩ := weight_behind h1 h2
  obtain ⟨w3, w3'⟩ := weight_behind h1 h3
  have m2 := meet_world e2 hp
  have m3 := meet_world e3 hp
  constructor
  · constructor
    · intro k
      simp only [case4a, hb]
      fin_cases k
      · simpa [tri, findVerts, interp_rot'] using m2
      · simp [tri, findVerts, interp_rot']
      · simpa [tri, findVerts, interp_rot'] using m3
    · intro k
      simp only [case4a, hb]
      fin_cases k <;> simp only [tri] <;> refine (simplex_rot _ _ _ _).mpr ⟨?_, ?_, ?_, ?_⟩ <;> linarith
    · intro c' hc' k
      cases hc'
      fin_cases k
      · simpa [case4a, tri, findVerts] using (meet_z e2 persp).ge
      · simpa [case4a, tri, findVerts] using h2
      · simpa [case4a, tri, findVerts] using (meet_z e3 persp).ge
    · simp only [case4a, hb, det_tri_rot]
      simp [det, tri, V3.dot, V3.cross]
      exact mul_nonneg (by linarith) w3.le
  · constructor
    · intro k
      simp only [case4b, hb]
      fin_cases k
      · simpa [tri, findVerts, interp_rot'] using m3
      · simp [tri, findVerts, interp_rot']
      · simp [tri, findVerts, interp_rot']
    · intro k
      simp only [case4b, hb]
      fin_cases k <;> simp only [tri] <;> refine (simplex_rot _ _ _ _).mpr ⟨?_, ?_, ?_, ?_⟩ <;> linarith
    · intro c' hc' k
      cases hc'
      fin_cases k
      · simpa [case4b, tri, findVerts] using (meet_z e3 persp).ge
      · simpa [case4b, tri, findVerts] using h2
      · simpa [case4b, tri, findVerts] using h3
    · simp only [case4b, hb, det_tri_rot]
      simp [det, tri, V3.dot, V3.cross]
      linarith

theorem part_one {zclip : Option K} {persp : Bool} {f : Tri K} (h : ∀ c, zclip = some c → ∀ k, c ≤ (f k).z) :
    Part zclip persp f f one := by
  refine ⟨fun k => ?_, fun k => ?_, h, ?_⟩
  · fin_cases k <;> ext <;> simp [interp, one, tri]
  · fin_cases k <;> simp [one, tri, Simplex]
  · simp [det, one, tri, V3.dot, V3.cross]

theorem interp_one (w : V3 K) : interp one w = w := by
  ext <;> simp [interp, one, tri]

/-- Case 3 covers everything in front of the plane. -/
theorem case3_cover {c : K} {persp : Bool} {f : Tri K} {i : Fin 3}
    (h1 : c ≤ (f i).z) (h2 : (f (i + 1)).z < c) (h3 : (f (i + 2)).z < c)
    {b : V3 K} (hb : Simplex b) (hz : c ≤ (interp f b).z) :
    ∃ w, Simplex w ∧ interp (case3 (findVerts c persp f i)).2 w = b := by
  obtain ⟨b1, b2, b3, rfl⟩ := exists_rot i b
  obtain ⟨n1, n2, n3, hs⟩ := (simplex_rot _ _ _ _).mp hb
  rw [interp_rot] at hz
  simp only [V3.add_z, V3.smul_z] at hz
  have e2 := weight_eq (c := c) (p := f i) (q := f (i + 1)) (by intro h; linarith)
  have e3 := weight_eq (c := c) (p := f i) (q := f (i + 2)) (by intro h; linarith)
  simp only [case3, findVerts_bary]
  generalize weight c (f i) (f (i + 1)) = w2 at *
  generalize weight c (f i) (f (i + 2)) = w3 at *
  generalize (f i).z = z1 at *
  generalize (f (i + 1)).z = z2 at *
  generalize (f (i + 2)).z = z3 at *
  rcases eq_or_lt_of_le h1 with rfl | h1
  · have hb2 : b2 = 0 := by
      by_contra h
      have : 0 < b2 := lt_of_le_of_ne n2 (Ne.symm h)
      have := mul_pos this (sub_pos.mpr h2)
      have := mul_nonneg n3 (sub_pos.mpr h3).le
      have : (b1 + b2 + b3) * c = c := by rw [hs, one_mul]
      nlinarith
    have hb3 : b3 = 0 := by
      by_contra h
      have : 0 < b3 := lt_of_le_of_ne n3 (Ne.symm h)
      have := mul_pos this (sub_pos.mpr h3)
      have := mul_nonneg n2 (sub_pos.mpr h2).le
      have : (b1 + b2 + b3) * c = c := by rw [hs, one_mul]
      nlinarith
    subst hb2 hb3
    have : b1 = 1 := by linarith
    subst this
    refine ⟨⟨0, 0, 1⟩, by simp [Simplex], ?_⟩
    rw [interp_tri_rot]
    simp [rot]
  · have p2 : 0 < w2 := by
      by_contra h
      have := mul_nonneg (neg_nonneg.mpr (not_lt.mp h)) (sub_pos.mpr (h2.trans h1)).le
      linarith
    have p3 : 0 < w3 := by
      by_contra h
      have := mul_nonneg (neg_nonneg.mpr (not_lt.mp h)) (sub_pos.mpr (h3.trans h1)).le
      linarith
    have d2 : b2 / w2 * (z1 - c) = b2 * (z1 - z2) := by rw [← e2]; field_simp
    have d3 : b3 / w3 * (z1 - c) = b3 * (z1 - z3) := by rw [← e3]; field_simp
    refine ⟨⟨b2 / w2, b3 / w3, 1 - b2 / w2 - b3 / w3⟩, ⟨div_nonneg n2 p2.le, div_nonneg n3 p3.le, ?_, by ring⟩, ?_⟩
    · have : 0 < z1 - c := by linarith
      have h : 0 ≤ (1 - b2 / w2 - b3 / w3) * (z1 - c) := by
        have e : (1 - b2 / w2 - b3 / w3) * (z1 - c) = (z1 - c) - b2 / w2 * (z1 - c) - b3 / w3 * (z1 - c) := by ring
        rw [e, d2, d3]
        have : b1 = 1 - b2 - b3 := by linarith
        subst this
        linarith
      exact nonneg_of_mul_nonneg_left h this
    · rw [interp_tri_rot]
      show rot i _ _ _ = rot i b1 b2 b3
      congr 1
      · obtain rfl : b1 = 1 - b2 - b3 := by linarith
        field_simp; ring
      · simp; field_simp
      · simp; field_simp

/-- Case 4 covers everything in front of the plane. -/
theorem case4_cover {c : K} {persp : Bool} {f : Tri K} {i : Fin 3}
    (h1 : (f i).z < c) (h2 : c ≤ (f (i + 1)).z) (h3 : c ≤ (f (i + 2)).z)
    {b : V3 K} (hb : Simplex b) (hz : c ≤ (interp f b).z) :
    (∃ w, Simplex w ∧ interp (case4a (findVerts c persp f i)).2 w = b) ∨
    (∃ w, Simplex w ∧ interp (case4b (findVerts c persp f i)).2 w = b) := by
  obtain ⟨b1, b2, b3, rfl⟩ := exists_rot i b
  obtain ⟨n1, n2, n3, hs⟩ := (simplex_rot _ _ _ _).mp hb
  rw [interp_rot] at hz
  simp only [V3.add_z, V3.smul_z] at hz
  have e2 := weight_eq (c := c) (p := f i) (q := f (i + 1)) (by intro h; linarith)
  have e3 := weight_eq (c := c) (p := f i) (q := f (i + 2)) (by intro h; linarith)
  obtain ⟨p2, l2⟩ := weight_behind h1 h2
  obtain ⟨p3, l3⟩ := weight_behind h1 h3
  simp only [case4a, case4b, findVerts_bary]
  generalize weight c (f i) (f (i + 1)) = w2 at *
  generalize weight c (f i) (f (i + 2)) = w3 at *
  generalize (f i).z = z1 at *
  generalize (f (i + 1)).z = z2 at *
  generalize (f (i + 2)).z = z3 at *
  by_cases hcmp : b3 * (1 - w3) < b1 * w3
  · left
    have q2 : 0 < 1 - w2 := by
      rcases eq_or_lt_of_le l2 with rfl | h
      · exfalso
        have : z2 = c := by linarith
        subst this
        have t : (b1 * w3 - b3 * (1 - w3)) * (z1 - z3) = b1 * (z1 - z2) + b3 * (z3 - z2) := by
          linear_combination (b1 + b3) * e3
        have := mul_pos (sub_pos.mpr hcmp) (sub_pos.mpr (h1.trans_le h3))
        have : (b1 + b2 + b3) * z2 = z2 := by rw [hs, one_mul]
        nlinarith
      · linarith
    have hz2 : 0 < z2 - c := by
      have : (1 - w2) * (z1 - z2) = c - z2 := by linear_combination -e2
      have := mul_pos q2 (sub_pos.mpr (h1.trans_le h2))
      linarith
    refine ⟨⟨(b1 - b3 / w3 * (1 - w3)) / (1 - w2), 1 - b3 / w3 - (b1 - b3 / w3 * (1 - w3)) / (1 - w2), b3 / w3⟩, ⟨?_, ?_, ?_, ?_⟩, ?_⟩
    · refine div_nonneg ?_ q2.le
      have : b3 / w3 * (1 - w3) ≤ b1 := by rw [div_mul_eq_mul_div, div_le_iff₀ p3]; exact hcmp.le
      linarith
    · have k3 : b3 / w3 * w3 = b3 := by field_simp
      generalize b3 / w3 = a5 at *
      have k4 : (b1 - a5 * (1 - w3)) / (1 - w2) * (1 - w2) = b1 - a5 * (1 - w3) := by field_simp
      show 0 ≤ 1 - a5 - (b1 - a5 * (1 - w3)) / (1 - w2)
      generalize (b1 - a5 * (1 - w3)) / (1 - w2) = a4 at *
      have hb2 : b2 = 1 - b1 - b3 := by linarith
      have : 0 ≤ (1 - a5 - a4) * (z2 - c) := by
        have : (1 - a5 - a4) * (z2 - c) = b1 * z1 + b2 * z2 + b3 * z3 - c := by
          rw [hb2]
          have hb1 : b1 = a4 * (1 - w2) + a5 * (1 - w3) := by linarith
          rw [hb1, ← k3]
          linear_combination (a4) * e2 + (a5) * e3
        rw [this]; linarith
      exact nonneg_of_mul_nonneg_left this hz2
    · exact div_nonneg n3 p3.le
    · show _ + (1 - _ - _) + _ = (1 : K); ring
    · rw [interp_tri_rot]
      show rot i _ _ _ = rot i b1 b2 b3
      have k3 : b3 / w3 * w3 = b3 := by field_simp
      generalize b3 / w3 = a5 at *
      have k4 : (b1 - a5 * (1 - w3)) / (1 - w2) * (1 - w2) = b1 - a5 * (1 - w3) := by field_simp
      simp only []
      generalize (b1 - a5 * (1 - w3)) / (1 - w2) = a4 at *
      congr 1 <;> linarith
  · right
    push Not at hcmp
    rcases eq_or_lt_of_le l3 with rfl | h
    · have : b1 = 0 := by apply le_antisymm _ n1; linarith
      subst this
      refine ⟨⟨0, b2, b3⟩, ⟨le_rfl, n2, n3, by simpa using hs⟩, ?_⟩
      rw [interp_tri_rot]
      show rot i _ _ _ = rot i 0 b2 b3
      simp
    · have q3 : 0 < 1 - w3 := by linarith
      refine ⟨⟨b1 / (1 - w3), b2, b3 - b1 / (1 - w3) * w3⟩, ⟨div_nonneg n1 q3.le, n2, ?_, ?_⟩, ?_⟩
      · have : b1 / (1 - w3) * w3 ≤ b3 := by rw [div_mul_eq_mul_div, div_le_iff₀ q3]; exact hcmp
        show 0 ≤ b3 - b1 / (1 - w3) * w3
        linarith
      · have k : b1 / (1 - w3) * (1 - w3) = b1 := by field_simp
        show b1 / (1 - w3) + b2 + (b3 - b1 / (1 - w3) * w3) = 1
        linarith
      · rw [interp_tri_rot]
        show rot i _ _ _ = rot i b1 b2 b3
        have k : b1 / (1 - w3) * (1 - w3) = b1 := by field_simp
        simp only []
        generalize b1 / (1 - w3) = a5 at *
        congr 1 <;> linarith

/-- The two triangles of case 4 have no inner point in common, unless both have no area. -/
theorem case4_disjoint {c : K} {persp : Bool} {f : Tri K} {i : Fin 3}
    (h1 : (f i).z < c) (h2 : c ≤ (f (i + 1)).z) (h3 : c ≤ (f (i + 2)).z)
    (hd : det (case4a (findVerts c persp f i)).2 ≠ 0 ∨ det (case4b (findVerts c persp f i)).2 ≠ 0)
    {w w' : V3 K} (hw : Inner w) (hw' : Inner w')
    (h : interp (case4a (findVerts c persp f i)).2 w = interp (case4b (findVerts c persp f i)).2 w') : False := by
  obtain ⟨p2, l2⟩ := weight_behind h1 h2
  obtain ⟨p3, l3⟩ := weight_behind h1 h3
  simp only [case4a, case4b, findVerts_bary, det_tri_rot] at h hd
  generalize weight c (f i) (f (i + 1)) = w2 at *
  generalize weight c (f i) (f (i + 2)) = w3 at *
  rw [interp_tri_rot, interp_tri_rot] at h
  obtain ⟨a1, a2, a3⟩ := rot_inj i h
  obtain ⟨i1, i2, i3⟩ := hw
  obtain ⟨j1, j2, j3⟩ := hw'
  have t : w.x * (1 - w2) * w3 = -(w'.z * (1 - w3)) := by
    linear_combination w3 * a1 - (1 - w3) * a3
  have t1 := mul_nonneg (mul_nonneg i1.le (sub_nonneg.mpr l2)) p3.le
  have t2 := mul_nonneg j3.le (sub_nonneg.mpr l3)
  have u1 : w.x * (1 - w2) * w3 = 0 := by linarith
  have u2 : w'.z * (1 - w3) = 0 := by linarith
  rcases hd with hd | hd
  · apply hd
    simp [det, tri, V3.dot, V3.cross]
    rcases mul_eq_zero.mp u1 with h | h
    · rcases mul_eq_zero.mp h with h | h
      · exact absurd h i1.ne'
      · exact Or.inl h
    · exact Or.inr h
  · apply hd
    simp [det, tri, V3.dot, V3.cross]
    rcases mul_eq_zero.mp u2 with h | h
    · exact absurd h j3.ne'
    · exact h

/-- A point of a part is in front of the plane, and converting its weights gives the same point. -/
theorem Part.interp_eq {zclip : Option K} {persp : Bool} {f t m : Tri K} (h : Part zclip persp f t m) (w : V3 K) :
    interp (fun k => world persp (t k)) w = interp (fun i => world persp (f i)) (interp m w) := by
  simp only [interp, h.at_]
  ext <;> simp <;> ring

theorem world_z (persp : Bool) (v : V3 K) : (world persp v).z = v.z := by
  unfold world; cases persp <;> rfl

theorem Part.weights {zclip : Option K} {persp : Bool} {f t m : Tri K} (h : Part zclip persp f t m) {w : V3 K}
    (hw : Simplex w) : Simplex (interp m w) ∧ ∀ c, zclip = some c → c ≤ (interp f (interp m w)).z := by
  obtain ⟨w1, w2, w3, ws⟩ := hw
  constructor
  · obtain ⟨a1, a2, a3, as⟩ := h.inside 0
    obtain ⟨b1, b2, b3, bs⟩ := h.inside 1
    obtain ⟨c1, c2, c3, cs⟩ := h.inside 2
    simp only [interp, Simplex, V3.add_x, V3.add_y, V3.add_z, V3.smul_x, V3.smul_y, V3.smul_z]
    refine ⟨by positivity, by positivity, by positivity, ?_⟩
    linear_combination w.x * as + w.y * bs + w.z * cs + ws
  · intro c hc
    have e := congrArg V3.z (h.interp_eq w)
    have e' : (interp f (interp m w)).z = (interp (fun k => world persp (t k)) w).z := by
      rw [e]; simp [interp, world_z]
    rw [e']
    simp only [interp, V3.add_z, V3.smul_z, world_z]
    have f0 := mul_le_mul_of_nonneg_left (h.front c hc 0) w1
    have f1 := mul_le_mul_of_nonneg_left (h.front c hc 1) w2
    have f2 := mul_le_mul_of_nonneg_left (h.front c hc 2) w3
    have : (w.x + w.y + w.z) * c = c := by rw [ws, one_mul]
    linarith

end P3D.Clip
