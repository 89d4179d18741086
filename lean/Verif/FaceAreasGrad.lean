/-
Model of `csrc/face_areas_normals` (backward) for `ops/mesh_face_areas_normals.py`: the gradients of the areas and normals of the
faces with respect to the vertices.

The CPU loop (`face_areas_normals_cpu.cpp:65-213`) and the CUDA kernel (`face_areas_normals.cu:69-230`) have the same formulas; the
kernel adds the contributions of the faces in any order.  Numbers are real.
-/
import Verif.MeshGeomProps
import Verif.GeometryProps
import Mathlib.Analysis.SpecialFunctions.Sqrt
import Mathlib.Tactic.FieldSimp
import Mathlib.Tactic.NormNum

set_option linter.unusedSectionVars false
namespace P3D.FaceGrad

open P3D P3D.Meshes P3D.Geom

/-- `face_areas_normals_cpu.cpp:99-210`: the gradients for the three vertices of a face, from the gradient `ga` of its area and `gn` of its
normal.  The formula of `grad_v1_z` is the one of the code, with `cx` where `cy` belongs (line 181). -/
noncomputable def faceGrad (ga : ℝ) (gn v0 v1 v2 : V3 ℝ) : V3 ℝ × V3 ℝ × V3 ℝ :=
  let ax := v1.x - v0.x
  let ay := v1.y - v0.y
  let az := v1.z - v0.z
  let bx := v2.x - v0.x
  let by' := v2.y - v0.y
  let bz := v2.z - v0.z
  let cx := ay * bz - az * by'
  let cy := az * bx - ax * bz
  let cz := ax * by' - ay * bx
  let norm := Real.sqrt (cx * cx + cy * cy + cz * cz)
  let norm := if norm < 1 / 1000000 then 1 / 1000000 else norm
  let inv := 1 / norm
  let inv2 := inv ^ 2
  let inv3 := inv ^ 3
  (⟨((-az + bz) * cy + (-by' + ay) * cz) / 2 * inv * ga + -cx * ((-az + bz) * cy + (-by' + ay) * cz) * inv3 * gn.x +
      ((-az + bz) - cy * ((-az + bz) * cy + (-by' + ay) * cz) * inv2) * inv * gn.y +
      ((-by' + ay) - cz * ((-az + bz) * cy + (-by' + ay) * cz) * inv2) * inv * gn.z,
    ((-bz + az) * cx + (-ax + bx) * cz) / 2 * inv * ga +
      ((-bz + az) - cx * ((-bz + az) * cx + (-ax + bx) * cz) * inv2) * inv * gn.x +
      -cy * ((-bz + az) * cx + (-ax + bx) * cz) * inv3 * gn.y +
      ((-ax + bx) - cz * ((-bz + az) * cx + (-ax + bx) * cz) * inv2) * inv * gn.z,
    ((-ay + by') * cx + (-bx + ax) * cy) / 2 * inv * ga +
      ((-ay + by') - cx * ((-ay + by') * cx + (-bx + ax) * cy) * inv2) * inv * gn.x +
      ((-bx + ax) - cy * ((-ay + by') * cx + (-bx + ax) * cy) * inv2) * inv * gn.y +
      -cz * ((-ay + by') * cx + (-bx + ax) * cy) * inv3 * gn.z⟩,
   ⟨(by' * cz - bz * cy) / 2 * inv * ga + -cx * (by' * cz - bz * cy) * inv3 * gn.x +
      (-bz - cy * (by' * cz - bz * cy) * inv2) * inv * gn.y + (by' - cz * (by' * cz - bz * cy) * inv2) * inv * gn.z,
    (bz * cx - bx * cz) / 2 * inv * ga + (bz - cx * (bz * cx - bx * cz) * inv2) * inv * gn.x +
      -cy * (bz * cx - bx * cz) * inv3 * gn.y + (-bx - cz * (bz * cx - bx * cz) * inv2) * inv * gn.z,
    (bx * cy - by' * cx) / 2 * inv * ga + (-by' - cx * (bx * cy - by' * cx) * inv2) * inv * gn.x +
      (bx - cx * (bx * cy - by' * cx) * inv2) * inv * gn.y + -cz * (bx * cy - by' * cx) * inv3 * gn.z⟩,
   ⟨(az * cy - ay * cz) / 2 * inv * ga + -cx * (az * cy - ay * cz) * inv3 * gn.x +
      (az - cy * (az * cy - ay * cz) * inv2) * inv * gn.y + (-ay - cz * (az * cy - ay * cz) * inv2) * inv * gn.z,
    (ax * cz - az * cx) / 2 * inv * ga + (-az - cx * (ax * cz - az * cx) * inv2) * inv * gn.x +
      -cy * (ax * cz - az * cx) * inv3 * gn.y + (ax - cz * (ax * cz - az * cx) * inv2) * inv * gn.z,
    (ay * cx - ax * cy) / 2 * inv * ga + (ay - cx * (ay * cx - ax * cy) * inv2) * inv * gn.x +
      (-ax - cy * (ay * cx - ax * cy) * inv2) * inv * gn.y + -cz * (ay * cx - ax * cy) * inv3 * gn.z⟩)

/-- `grad_verts[i] += x`. -/
noncomputable def addAt (g : Nat → V3 ℝ) (i : Int) (x : V3 ℝ) (v : Nat) : V3 ℝ := if i = (v : Int) then g v + x else g v

/-- One face of the loop: `face_areas_normals_cpu.cpp:80-211`, `none` for an index outside the vertices. -/
noncomputable def step (verts : List (V3 ℝ)) (g : Nat → V3 ℝ) (q : Face × ℝ × V3 ℝ) : Option (Nat → V3 ℝ) :=
  (corners verts q.1).map fun t =>
    let r := faceGrad q.2.1 q.2.2 t.1 t.2.1 t.2.2
    addAt (addAt (addAt g q.1.1 r.1) q.1.2.1 r.2.1) q.1.2.2 r.2.2

/-- `face_areas_normals_cpu.cpp:65-213` `FaceAreasNormalsBackwardCpu`: faces with the gradients of their areas and normals. -/
noncomputable def backward (verts : List (V3 ℝ)) (items : List (Face × ℝ × V3 ℝ)) : Option (Nat → V3 ℝ) :=
  items.foldlM (step verts) fun _ => 0

/-! ### Specification -/

/-- What the gradients `ga`, `gn` mean: the sum of the areas and normals with these coefficients (in a later loss). -/
noncomputable def loss (verts : List (V3 ℝ)) (items : List (Face × ℝ × V3 ℝ)) : Option ℝ :=
  (faceAreasNormals verts (items.map (·.1))).map fun out =>
    (List.zipWith (fun (q : Face × ℝ × V3 ℝ) (o : ℝ × V3 ℝ) => q.2.1 * o.1 + V3.dot q.2.2 o.2) items out).sum

/-- The vertices moved along `d`. -/
noncomputable def move (verts d : List (V3 ℝ)) (t : ℝ) : List (V3 ℝ) := List.zipWith (fun p x => p + t • x) verts d

/-- Twice the area vector of a triangle. -/
def area2 (t : V3 ℝ × V3 ℝ × V3 ℝ) : V3 ℝ := V3.cross (t.2.1 - t.1) (t.2.2 - t.1)

/-- The part of the derivative that the code misses: `d1` is the direction of the second vertex. -/
noncomputable def defect (gn : V3 ℝ) (t : V3 ℝ × V3 ℝ × V3 ℝ) (d1 : V3 ℝ) : ℝ :=
  let b := t.2.2 - t.1
  let c := area2 t
  (c.x - c.y) * (b.x * c.y - b.y * c.x) / norm3 c ^ 3 * gn.y * d1.z

/-! ### One face -/

/-- Loss of one face. -/
noncomputable def loss1 (ga : ℝ) (gn : V3 ℝ) (t : V3 ℝ × V3 ℝ × V3 ℝ) : ℝ :=
  ga * (norm3 (area2 t) / 2) + V3.dot gn (Meshes.normalize (1 / 1000000) (area2 t))

theorem face_deriv (ga : ℝ) (gn v0 v1 v2 d0 d1 d2 : V3 ℝ) (hbig : 1 / 1000000 < norm3 (area2 (v0, v1, v2))) :
    HasDerivAt (fun t : ℝ => loss1 ga gn (v0 + t • d0, v1 + t • d1, v2 + t • d2))
      (V3.dot (faceGrad ga gn v0 v1 v2).1 d0 + V3.dot (faceGrad ga gn v0 v1 v2).2.1 d1 + V3.dot (faceGrad ga gn v0 v1 v2).2.2 d2 +
        defect gn (v0, v1, v2) d1) 0 := by
  set C : ℝ → V3 ℝ := fun t => area2 (v0 + t • d0, v1 + t • d1, v2 + t • d2) with hC
  set c := area2 (v0, v1, v2) with hc
  have hC0 : C 0 = c := by simp [hC, hc]
  -- the components are quadratic
  set a := v1 - v0 with ha
  set b := v2 - v0 with hb
  set da := d1 - d0 with hda
  set db := d2 - d0 with hdb
  have hx : HasDerivAt (fun t => (C t).x) (a.y * db.z + da.y * b.z - a.z * db.y - da.z * b.y) 0 := by
    refine hd_congr (hasDerivAt_quad c.x _ (da.y * db.z - da.z * db.y)) (fun t => ?_) rfl
    simp [hC, hc, area2, V3.cross, ha, hb, hda, hdb]; ring
  have hy : HasDerivAt (fun t => (C t).y) (a.z * db.x + da.z * b.x - a.x * db.z - da.x * b.z) 0 := by
    refine hd_congr (hasDerivAt_quad c.y _ (da.z * db.x - da.x * db.z)) (fun t => ?_) rfl
    simp [hC, hc, area2, V3.cross, ha, hb, hda, hdb]; ring
  have hz : HasDerivAt (fun t => (C t).z) (a.x * db.y + da.x * b.y - a.y * db.x - da.y * b.x) 0 := by
    refine hd_congr (hasDerivAt_quad c.z _ (da.x * db.y - da.y * db.x)) (fun t => ?_) rfl
    simp [hC, hc, area2, V3.cross, ha, hb, hda, hdb]; ring
  have hpos : 0 < norm3 c := lt_trans (by norm_num) hbig
  have hsq : (C 0).x * (C 0).x + (C 0).y * (C 0).y + (C 0).z * (C 0).z ≠ 0 := by
    rw [hC0]
    intro h0
    have : norm3 c = 0 := by rw [norm3, V3.normSq, V3.dot, h0, Real.sqrt_zero]
    linarith
  have hn : HasDerivAt (fun t => norm3 (C t)) _ 0 := (((hx.mul hx).add (hy.mul hy)).add (hz.mul hz)).sqrt hsq
  have hn0 : norm3 (C 0) ≠ 0 := by rw [hC0]; exact hpos.ne'
  have key := ((hn.div_const 2).const_mul ga).add
    ((((hx.div hn hn0).const_mul gn.x).add ((hy.div hn hn0).const_mul gn.y)).add ((hz.div hn hn0).const_mul gn.z))
  have hev : (fun t : ℝ => loss1 ga gn (v0 + t • d0, v1 + t • d1, v2 + t • d2)) =ᶠ[nhds 0]
      (fun t => ga * (norm3 (C t) / 2) + (gn.x * ((C t).x / norm3 (C t)) + gn.y * ((C t).y / norm3 (C t)) + gn.z * ((C t).z / norm3 (C t)))) := by
    have hlt : ∀ᶠ t in nhds (0 : ℝ), 1 / 1000000 < norm3 (C t) := hn.continuousAt.eventually (lt_mem_nhds (by change _ < norm3 (C 0); rw [hC0]; exact hbig))
    filter_upwards [hlt] with t ht
    change ga * (norm3 (C t) / 2) + V3.dot gn (Meshes.normalize (1 / 1000000) (C t)) = _
    simp only [Meshes.normalize, max_eq_left ht.le, V3.dot, V3.smul_x, V3.smul_y, V3.smul_z]
    ring
  refine (HasDerivAt.congr_of_eventuallyEq (hd_congr key (fun _ => rfl) ?_) hev)
  have hN : Real.sqrt ((C 0).x * (C 0).x + (C 0).y * (C 0).y + (C 0).z * (C 0).z) = norm3 c := by rw [hC0]; rfl
  simp only [Pi.add_apply, Pi.mul_apply]
  have hN2 : Real.sqrt (c.x * c.x + c.y * c.y + c.z * c.z) = norm3 c := rfl
  rw [hC0]
  have ex : (v1.y - v0.y) * (v2.z - v0.z) - (v1.z - v0.z) * (v2.y - v0.y) = c.x := rfl
  have ey : (v1.z - v0.z) * (v2.x - v0.x) - (v1.x - v0.x) * (v2.z - v0.z) = c.y := rfl
  have ez : (v1.x - v0.x) * (v2.y - v0.y) - (v1.y - v0.y) * (v2.x - v0.x) = c.z := rfl
  simp only [faceGrad, defect, ex, ey, ez, hN2, if_neg (not_lt.mpr hbig.le), V3.dot, ← hc]
  simp only [hda, hdb, ha, hb, V3.sub_x, V3.sub_y, V3.sub_z]
  generalize norm3 c = n at *
  field_simp
  ring

/-! ### The batch -/

theorem corner_some {X : Type} {l : List X} {i : Int} {p : X} (h : corner l i = some p) : ∃ k : Nat, i = k ∧ l[k]? = some p := by
  unfold corner at h
  split_ifs at h with h0
  exact ⟨i.toNat, (Int.toNat_of_nonneg h0).symm, h⟩

theorem corner_move {verts d : List (V3 ℝ)} (hd : d.length = verts.length) (t : ℝ) {i : Int} {p : V3 ℝ} (h : corner verts i = some p) :
    corner (move verts d t) i = some (p + t • d.getD i.toNat 0) := by
  obtain ⟨k, rfl, hk⟩ := corner_some h
  have hlt : k < verts.length := (List.getElem?_eq_some_iff.mp hk).1
  have hp := (List.getElem?_eq_some_iff.mp hk).2
  simp only [corner, Int.natCast_nonneg, if_true, Int.toNat_natCast, move, List.getElem?_zipWith]
  rw [hk, List.getElem?_eq_getElem (by omega : k < d.length)]
  simp only [List.getD_eq_getElem?_getD, List.getElem?_eq_getElem (by omega : k < d.length), Option.getD_some]

/-- The directions of the corners of a face. -/
noncomputable def dirs (d : List (V3 ℝ)) (f : Face) : V3 ℝ × V3 ℝ × V3 ℝ := (d.getD f.1.toNat 0, d.getD f.2.1.toNat 0, d.getD f.2.2.toNat 0)

theorem corners_some {X : Type} {l : List X} {f : Face} {t : X × X × X} (h : corners l f = some t) :
    corner l f.1 = some t.1 ∧ corner l f.2.1 = some t.2.1 ∧ corner l f.2.2 = some t.2.2 := by
  unfold corners at h
  cases h0 : corner l f.1 with
  | none => simp [h0] at h
  | some a =>
    cases h1 : corner l f.2.1 with
    | none => simp [h0, h1] at h
    | some b =>
      cases h2 : corner l f.2.2 with
      | none => simp [h0, h1, h2] at h
      | some c =>
        simp only [h0, h1, h2] at h
        cases h
        exact ⟨rfl, rfl, rfl⟩

theorem corners_move {verts d : List (V3 ℝ)} (hd : d.length = verts.length) (t : ℝ) {f : Face} {T : V3 ℝ × V3 ℝ × V3 ℝ}
    (h : corners verts f = some T) :
    corners (move verts d t) f = some (T.1 + t • (dirs d f).1, T.2.1 + t • (dirs d f).2.1, T.2.2 + t • (dirs d f).2.2) := by
  obtain ⟨h0, h1, h2⟩ := corners_some h
  simp only [corners, corner_move hd t h0, corner_move hd t h1, corner_move hd t h2]
  rfl

/-- `Σ_v dot (g v) (d v)`. -/
noncomputable def pair (d : List (V3 ℝ)) (g : Nat → V3 ℝ) : ℝ := ((List.range d.length).map fun v => V3.dot (g v) (d.getD v 0)).sum

theorem pair_addAt (d : List (V3 ℝ)) (g : Nat → V3 ℝ) {k : Nat} (hk : k < d.length) (x : V3 ℝ) :
    pair d (addAt g k x) = pair d g + V3.dot x (d.getD k 0) := by
  have key : ∀ n, ((List.range n).map fun v => V3.dot (addAt g k x v) (d.getD v 0)).sum =
      ((List.range n).map fun v => V3.dot (g v) (d.getD v 0)).sum + if k < n then V3.dot x (d.getD k 0) else 0 := by
    intro n
    induction n with
    | zero => simp
    | succ n ih =>
      rw [List.range_succ, List.map_append, List.sum_append, ih, List.map_append, List.sum_append]
      simp only [List.map_cons, List.map_nil, List.sum_cons, List.sum_nil, add_zero, addAt]
      rcases Nat.lt_trichotomy k n with h | h | h
      · rw [if_pos h, if_pos (show k < n + 1 by omega), if_neg (show ¬ ((k : Int) = n) by omega)]; ring
      · subst h
        rw [if_neg (lt_irrefl k), if_pos (Nat.lt_succ_self k), if_pos rfl]
        simp only [V3.dot, V3.add_x, V3.add_y, V3.add_z]; ring
      · rw [if_neg (by omega), if_neg (by omega), if_neg (by omega)]; ring
  rw [pair, key, if_pos hk]; rfl

/-- What a face adds to the derivative along `d` by the code. -/
noncomputable def contrib (verts d : List (V3 ℝ)) (q : Face × ℝ × V3 ℝ) : ℝ :=
  match corners verts q.1 with
  | none => 0
  | some T => V3.dot (faceGrad q.2.1 q.2.2 T.1 T.2.1 T.2.2).1 (dirs d q.1).1 + V3.dot (faceGrad q.2.1 q.2.2 T.1 T.2.1 T.2.2).2.1 (dirs d q.1).2.1 +
      V3.dot (faceGrad q.2.1 q.2.2 T.1 T.2.1 T.2.2).2.2 (dirs d q.1).2.2

theorem backward_pair {verts d : List (V3 ℝ)} (hd : d.length = verts.length) {items : List (Face × ℝ × V3 ℝ)} :
    ∀ {g0 g : Nat → V3 ℝ}, items.foldlM (step verts) g0 = some g →
      pair d g = pair d g0 + (items.map (contrib verts d)).sum ∧ ∀ q ∈ items, ∃ T, corners verts q.1 = some T := by
  induction items with
  | nil => intro g0 g h; cases h; simp
  | cons q items ih =>
    intro g0 g h
    rw [List.foldlM_cons] at h
    cases hc : corners verts q.1 with
    | none => simp [step, hc] at h
    | some T =>
      simp only [step, hc, Option.map_some, Option.bind_eq_bind, Option.bind_some] at h
      obtain ⟨h1, h2⟩ := ih h
      obtain ⟨c0, c1, c2⟩ := corners_some hc
      obtain ⟨k0, e0, g0'⟩ := corner_some c0
      obtain ⟨k1, e1, g1'⟩ := corner_some c1
      obtain ⟨k2, e2, g2'⟩ := corner_some c2
      have l0 : k0 < d.length := by rw [hd]; exact (List.getElem?_eq_some_iff.mp g0').1
      have l1 : k1 < d.length := by rw [hd]; exact (List.getElem?_eq_some_iff.mp g1').1
      have l2 : k2 < d.length := by rw [hd]; exact (List.getElem?_eq_some_iff.mp g2').1
      constructor
      · rw [h1, e0, e1, e2, pair_addAt _ _ l2, pair_addAt _ _ l1, pair_addAt _ _ l0]
        simp only [List.map_cons, List.sum_cons, contrib, hc, dirs, e0, e1, e2, Int.toNat_natCast]
        ring
      · intro q' hq'
        rcases List.mem_cons.mp hq' with rfl | hq'
        · exact ⟨T, hc⟩
        · exact h2 q' hq'

/-- The loss of the faces. -/
theorem loss_sum {verts : List (V3 ℝ)} {items : List (Face × ℝ × V3 ℝ)} {T : Face × ℝ × V3 ℝ → V3 ℝ × V3 ℝ × V3 ℝ}
    (h : ∀ q ∈ items, corners verts q.1 = some (T q)) : loss verts items = some (items.map fun q => loss1 q.2.1 q.2.2 (T q)).sum := by
  have h2 : faceAreasNormals verts (items.map (·.1)) =
      some (items.map fun q => (norm3 (area2 (T q)) / 2, Meshes.normalize (1 / 1000000) (area2 (T q)))) := by
    induction items with
    | nil => rfl
    | cons q items ih =>
      have := ih fun q' hq' => h q' (List.mem_cons_of_mem _ hq')
      unfold faceAreasNormals at this ⊢
      rw [List.map_cons, List.mapM_cons, this, h q List.mem_cons_self]
      rfl
  rw [loss, h2, Option.map_some]
  congr 1
  clear h h2
  induction items with
  | nil => rfl
  | cons q items ih => simp only [List.map_cons, List.zipWith_cons_cons, List.sum_cons, ih]; rfl

theorem hasDerivAt_listSum {X : Type} {F : X → ℝ → ℝ} {F' : X → ℝ} {x : ℝ} : ∀ {l : List X}, (∀ q ∈ l, HasDerivAt (F q) (F' q) x) →
    HasDerivAt (fun t => (l.map fun q => F q t).sum) (l.map F').sum x
  | [], _ => by simpa using hasDerivAt_const x (0 : ℝ)
  | q :: l, h => by
    simp only [List.map_cons, List.sum_cons]
    exact (h q List.mem_cons_self).add (hasDerivAt_listSum fun q' hq' => h q' (List.mem_cons_of_mem _ hq'))

/-- What the code misses for a face. -/
noncomputable def missing (verts d : List (V3 ℝ)) (q : Face × ℝ × V3 ℝ) : ℝ :=
  match corners verts q.1 with
  | none => 0
  | some T => defect q.2.2 T (dirs d q.1).2.1

/-- **The backward pass.**  For every mesh whose faces are not degenerate, all gradients and every motion of the vertices, the derivative
of the loss is the one given by the returned gradients plus what is missing at the second vertices. -/
theorem backward_deriv {verts d : List (V3 ℝ)} (hd : d.length = verts.length) {items : List (Face × ℝ × V3 ℝ)} {g : Nat → V3 ℝ}
    (hg : backward verts items = some g)
    (hbig : ∀ q ∈ items, ∀ T, corners verts q.1 = some T → 1 / 1000000 < norm3 (area2 T)) :
    ∃ L : ℝ → ℝ, (∀ t, loss (move verts d t) items = some (L t)) ∧ HasDerivAt L (pair d g + (items.map (missing verts d)).sum) 0 := by
  obtain ⟨h1, h2⟩ := backward_pair hd hg
  let T : Face × ℝ × V3 ℝ → V3 ℝ × V3 ℝ × V3 ℝ := fun q => (corners verts q.1).getD (0, 0, 0)
  have hT : ∀ q ∈ items, corners verts q.1 = some (T q) := by
    intro q hq
    obtain ⟨U, hU⟩ := h2 q hq
    simp only [T, hU, Option.getD_some]
  refine ⟨fun t => (items.map fun q => loss1 q.2.1 q.2.2
      ((T q).1 + t • (dirs d q.1).1, (T q).2.1 + t • (dirs d q.1).2.1, (T q).2.2 + t • (dirs d q.1).2.2)).sum, ?_, ?_⟩
  · intro t
    exact loss_sum fun q hq => corners_move hd t (hT q hq)
  · have := hasDerivAt_listSum (l := items) (x := 0) fun q hq => face_deriv q.2.1 q.2.2 (T q).1 (T q).2.1 (T q).2.2
      (dirs d q.1).1 (dirs d q.1).2.1 (dirs d q.1).2.2 (hbig q hq _ (hT q hq))
    refine hd_congr this (fun _ => rfl) ?_
    have z : pair d (fun _ => 0) = 0 := by
      unfold pair
      rw [List.map_congr_left (g := fun _ => (0 : ℝ)) (fun v _ => by simp [V3.dot])]
      simp
    rw [h1, z, zero_add, ← List.sum_map_add]
    congr 1
    refine List.map_congr_left fun q hq => ?_
    simp only [contrib, missing, hT q hq]

/-- The gradients are right if those of the normals have no `y` component, in particular for losses of the areas. -/
theorem backward_areas {verts d : List (V3 ℝ)} (hd : d.length = verts.length) {items : List (Face × ℝ × V3 ℝ)} {g : Nat → V3 ℝ}
    (hg : backward verts items = some g) (hbig : ∀ q ∈ items, ∀ T, corners verts q.1 = some T → 1 / 1000000 < norm3 (area2 T))
    (hy : ∀ q ∈ items, q.2.2.y = 0) :
    ∃ L : ℝ → ℝ, (∀ t, loss (move verts d t) items = some (L t)) ∧ HasDerivAt L (pair d g) 0 := by
  obtain ⟨L, h1, h2⟩ := backward_deriv hd hg hbig
  refine ⟨L, h1, hd_congr h2 (fun _ => rfl) ?_⟩
  have : items.map (missing verts d) = items.map fun _ => (0 : ℝ) := List.map_congr_left fun q hq => by
    unfold missing
    cases corners verts q.1 with
    | none => rfl
    | some T => simp [defect, hy q hq]
  rw [this]; simp

/-- The order of the additions does not matter (CUDA `atomicAdd`). -/
theorem backward_perm {verts : List (V3 ℝ)} {i1 i2 : List (Face × ℝ × V3 ℝ)} (h : i1.Perm i2) : backward verts i1 = backward verts i2 := by
  have comm : ∀ (g : Nat → V3 ℝ) a b, (step verts g a).bind (fun x => step verts x b) = (step verts g b).bind (fun x => step verts x a) := by
    intro g a b
    cases ha : corners verts a.1 with
    | none => cases hb : corners verts b.1 <;> simp [step, ha, hb]
    | some A =>
      cases hb : corners verts b.1 with
      | none => simp [step, ha, hb]
      | some B =>
        simp only [step, ha, hb, Option.map_some, Option.bind_some]
        congr 1
        funext v
        simp only [addAt]
        split_ifs <;> abel
  have all : ∀ g0, i1.foldlM (step verts) g0 = i2.foldlM (step verts) g0 := by
    induction h with
    | nil => intro g0; rfl
    | cons x _ ih =>
      intro g0
      simp only [List.foldlM_cons]
      congr 1; funext g; exact ih g
    | swap x y l =>
      intro g0
      simp only [List.foldlM_cons, Option.bind_eq_bind]
      rw [← Option.bind_assoc, ← Option.bind_assoc, comm]
    | trans _ _ ih1 ih2 => intro g0; rw [ih1, ih2]
  exact all _

/-! ### The gradient is wrong -/

theorem ex_norm : norm3 (area2 ((0 : V3 ℝ), ⟨1 / 2, -2, 1 / 2⟩, ⟨1, 0, -1⟩)) = 3 := by
  rw [norm3, show (V3.normSq (area2 ((0 : V3 ℝ), ⟨1 / 2, -2, 1 / 2⟩, ⟨1, 0, -1⟩))) = 3 ^ 2 by
    norm_num [area2, V3.normSq, V3.dot, V3.cross]]
  exact Real.sqrt_sq (by norm_num)

/-- **The gradient of the normals is wrong**: for the `y` component of the normal of a triangle and the `z` coordinate of its second vertex,
the returned value differs from the derivative (7/27 against 8/27). -/
theorem backward_wrong :
    (faceGrad 0 ⟨0, 1, 0⟩ 0 ⟨1 / 2, -2, 1 / 2⟩ ⟨1, 0, -1⟩).2.1.z = 7 / 27 ∧
    HasDerivAt (fun t : ℝ => (Meshes.normalize (1 / 1000000) (area2 ((0 : V3 ℝ), ⟨1 / 2, -2, 1 / 2 + t⟩, ⟨1, 0, -1⟩))).y) (8 / 27) 0 := by
  have hv : (faceGrad 0 ⟨0, 1, 0⟩ 0 ⟨1 / 2, -2, 1 / 2⟩ ⟨1, 0, -1⟩).2.1.z = 7 / 27 := by
    have hs : Real.sqrt (2 * 2 + 1 * 1 + 2 * 2) = 3 := by
      rw [show (2 * 2 + 1 * 1 + 2 * 2 : ℝ) = 3 ^ 2 by norm_num]; exact Real.sqrt_sq (by norm_num)
    have hs' : Real.sqrt (2 * 2 + 1 + 2 * 2) = 3 := by rw [← hs]; norm_num
    have h9 : Real.sqrt 9 = 3 := by rw [← hs]; norm_num
    norm_num [faceGrad, hs, hs', h9]
  refine ⟨hv, ?_⟩
  have h := face_deriv 0 ⟨0, 1, 0⟩ 0 ⟨1 / 2, -2, 1 / 2⟩ ⟨1, 0, -1⟩ 0 ⟨0, 0, 1⟩ 0 (by rw [ex_norm]; norm_num)
  refine hd_congr h (fun t => ?_) ?_
  · have e : ((⟨1 / 2, -2, 1 / 2⟩ : V3 ℝ) + t • (⟨0, 0, 1⟩ : V3 ℝ)) = ⟨1 / 2, -2, 1 / 2 + t⟩ := by ext <;> simp
    rw [e]
    simp [loss1, V3.dot]
  · have : V3.dot (faceGrad 0 ⟨0, 1, 0⟩ 0 ⟨1 / 2, -2, 1 / 2⟩ ⟨1, 0, -1⟩).2.1 ⟨0, 0, 1⟩ = 7 / 27 := by
      rw [V3.dot, hv]; ring
    have hdf : defect ⟨0, 1, 0⟩ ((0 : V3 ℝ), ⟨1 / 2, -2, 1 / 2⟩, ⟨1, 0, -1⟩) ⟨0, 0, 1⟩ = 1 / 27 := by
      unfold defect
      simp only [ex_norm]
      norm_num [area2, V3.cross]
    rw [this, hdf]
    norm_num [V3.dot]

/-- The hypotheses hold for a mesh of two faces. -/
example : ∃ g, backward [⟨0, 0, 0⟩, ⟨1, 0, 0⟩, ⟨0, 1, 0⟩, ⟨1, 1, 0⟩] [((0, 1, 2), 1, ⟨0, 0, 1⟩), ((1, 3, 2), 2, ⟨1, 0, 0⟩)] = some g :=
  ⟨_, rfl⟩

end P3D.FaceGrad
