/-
Cameras one point at a time, and the line of points that a camera projects to a given place of the image.
-/
import Verif.CameraScreen
import Mathlib.Data.List.GetD

set_option linter.unusedSectionVars false
set_option linter.unusedSimpArgs false

namespace P3D.Camera
open T3d

variable {K : Type*} [Field K] [LinearOrder K] [IsStrictOrderedRing K]

/-! ### One point, one camera -/

/-- View coordinates of a point for camera `i`. -/
def viewPoint (c : Cam K) (i : Nat) (p : V3 K) : V3 K := M3.vecMul p (c.R.getD i 1) + c.T.getD i 0

/-- The projection matrix of camera `i` in row-vector form. -/
def projMat (c : Cam K) (i : Nat) : M4 K := (projMats noKw c).getD i 1

/-- Projection of a point of the view space into NDC by camera `i`. -/
def viewToNdc (c : Cam K) (i : Nat) (v : V3 K) : V3 K :=
  let q := transformPoint none v (projMat c i)
  if c.params.inNdc then q
  else transformPoint none q (ndMat c.params (projMat c i) (T3d.pick (0, 0) (c.imageSize.getD []) i))

/-- NDC coordinates of a point for camera `i`. -/
def ndcPoint (c : Cam K) (i : Nat) (p : V3 K) : V3 K := viewToNdc c i (viewPoint c i p)

/-- The camera can convert to NDC: it is defined there, or image sizes are known. -/
def NdcOk (c : Cam K) : Prop :=
  c.params.inNdc = true ∨ ∃ hw, c.imageSize = some hw ∧ SizesOk c.n hw

theorem setRT_noKw (c : Cam K) : setRT noKw c = c := rfl

theorem viewOf_point {c : Cam K} (hR : c.R.length = c.n) (hT : c.T.length = c.n) {b : List (List (V3 K))}
    (hb : b.length = c.n) : viewOf c.R c.T b = b.mapIdx fun i l => l.map (viewPoint c i) := by
  unfold viewOf
  apply List.ext_getElem
  · simp [hb, hR, hT]
  · intro i h1 h2
    have hi : i < b.length := by simpa using h2
    simp only [List.getElem_zipWith, List.getElem_zip, List.getElem_mapIdx]
    apply List.map_congr_left
    intro p _
    unfold viewPoint
    rw [List.getD_eq_getElem _ _ (by omega), List.getD_eq_getElem _ _ (by omega)]

theorem projOf_point {c : Cam K} (hv : Valid noKw c) {b : List (List (V3 K))} (hb : b.length = c.n) :
    projOf noKw c b = b.mapIdx fun i l => l.map fun p => transformPoint none (viewPoint c i p) (projMat c i) := by
  have hR : c.R.length = c.n := hv.rlen
  have hT : c.T.length = c.n := hv.tlen
  unfold projOf
  rw [setRT_noKw, viewOf_point hR hT hb]
  apply List.ext_getElem
  · simp [hb, hv.plen]
  · intro i h1 h2
    have hi : i < b.length := by simpa using h2
    simp only [List.getElem_zipWith, List.getElem_mapIdx, List.map_map]
    apply List.map_congr_left
    intro p _
    unfold projMat
    rw [List.getD_eq_getElem _ _ (by rw [hv.plen]; omega)]
    rfl

/-- The batched view transform works point by point. -/
theorem view_pointwise {c : Cam K} (hv : Valid noKw c) {b : List (List (V3 K))} (hb : b.length = c.n) :
    ∃ w, (getWorldToView noKw c).2 = .ok w
      ∧ transformPoints w none (.batch b) = .ok (.batch (b.mapIdx fun i l => l.map (viewPoint c i))) := by
  have hR : c.R.length = c.n := hv.rlen
  have hT : c.T.length = c.n := hv.tlen
  obtain ⟨w, p, t, hw, gw, -⟩ := full_good hv
  refine ⟨w, hw, ?_⟩
  rw [← viewOf_point hR hT hb]
  exact view_eq gw (hR.trans hT.symm) (hb.trans hR.symm)

/-- Cameras defined in NDC: `transform_points_ndc` is `transform_points`. -/
theorem transformPtsNdc_in {c : Cam K} (hn : c.params.inNdc = true) (pts : Pts K) :
    (transformPtsNdc noKw none pts c).2 = (transformPts noKw none pts c).2 := by
  unfold transformPtsNdc transformPts toNdc
  rcases h : (fullProjection noKw c).2 with e | t
  · rfl
  · simp only [hn, if_true]
    rfl

/-- Hypothesis on the depth of points for perspective cameras. -/
def Away (c : Cam K) (b : List (List (V3 K))) : Prop :=
  c.params.isPersp → ∀ i (h : i < b.length), ∀ p ∈ b[i], (viewPoint c i p).z ≠ 0

theorem away_view {c : Cam K} (hv : Valid noKw c) {b : List (List (V3 K))} (hb : b.length = c.n) (ha : Away c b) :
    c.params.isPersp → ∀ l ∈ viewOf (setRT noKw c).R (setRT noKw c).T b, ∀ v ∈ l, v.z ≠ 0 := by
  intro hp l hl v hvl
  have hR : c.R.length = c.n := hv.rlen
  have hT : c.T.length = c.n := hv.tlen
  rw [setRT_noKw, viewOf_point hR hT hb] at hl
  obtain ⟨i, hi, rfl⟩ := List.mem_iff_getElem.mp hl
  simp only [List.length_mapIdx] at hi
  simp only [List.getElem_mapIdx, List.mem_map] at hvl
  obtain ⟨p, hp', rfl⟩ := hvl
  exact ha hp i hi p hp'

/-- The batched projection to NDC works point by point. -/
theorem ndc_pointwise {c : Cam K} (hv : Valid noKw c) (hn : NdcOk c) {b : List (List (V3 K))} (hb : b.length = c.n)
    (ha : Away c b) :
    (transformPtsNdc noKw none (.batch b) c).2 = .ok (.batch (b.mapIdx fun i l => l.map (ndcPoint c i))) := by
  by_cases hin : c.params.inNdc = true
  · rw [transformPtsNdc_in hin, transformPts_eq hv hb, projOf_point hv hb]
    congr 2
    unfold ndcPoint viewToNdc
    simp only [hin, if_true]
  · have hin' : c.params.inNdc = false := by simpa using hin
    obtain ⟨hw, hi, hs⟩ := hn.resolve_left hin
    rw [transformPtsNdc_eq hv hin' (hw := hw) (by rw [hi]; rfl) hs hb (away_view hv hb ha), projOf_point hv hb]
    congr 2
    unfold ndcOf ndMats
    apply List.ext_getElem
    · simp [hb, hv.plen]
    · intro i h1 h2
      have hi' : i < b.length := by simpa using h2
      simp only [List.getElem_zipWith, List.getElem_mapIdx, List.map_map, List.getElem_map, List.getElem_range]
      apply List.map_congr_left
      intro p _
      unfold ndcPoint viewToNdc
      simp only [Function.comp, hin', hi, Option.getD_some, Bool.false_eq_true, if_false]
      have : (projMats noKw c)[i]'(by rw [hv.plen]; omega) = projMat c i := by
        unfold projMat
        rw [List.getD_eq_getElem _ _ (by rw [hv.plen]; omega)]
      rw [this]

/-! ### Unprojection in NDC -/

theorem bcast_one {α β γ : Type*} (da : α) (db : β) (f : α → β → γ) (a : List α) (y : β) :
    bcast da db f a [y] = some (a.map fun x => f x y) := by
  unfold bcast blen
  by_cases h : a.length = 1
  · obtain ⟨x, rfl⟩ := List.length_eq_one_iff.mp h
    simp [pick]
  · simp only [List.length_singleton, h, if_false, if_true]
    simp only [Option.map_some, Option.some.injEq]
    apply List.ext_getElem
    · simp
    · intro i h1 h2
      have hi : i < a.length := by simpa using h2
      simp only [List.getElem_map, List.getElem_range]
      rw [pick_lt _ _ _ hi]
      simp [pick]

/-- Composition with the identity of batch size one. -/
theorem good_compose_one {t : T3 K} {ms : List (M4 K)} (ht : Good t ms) :
    Good (compose t [.mk .base .f32 [1] []]) ms := by
  have h1 : Good (.mk .base .f32 [(1 : M4 K)] []) [1] := good_base _ (by simp)
  constructor
  · obtain ⟨k, d, m, ts⟩ := t
    have h2 := ht.1
    rw [Ok] at h2
    rw [compose, Ok]
    refine ⟨fun x hx => kindOk_det (h2.1 x hx), oks_append _ _ h2.2 ?_⟩
    rw [Oks, Oks]
    exact ⟨h1.1, trivial⟩
  · have := matB_compose t [.mk .base .f32 [(1 : M4 K)] []]
    rw [List.map_singleton, List.prod_singleton] at this
    unfold matB at this
    rw [this, ht.2, h1.2]
    show bmm ms [1] = _
    unfold bmm
    rw [bcast_one]
    simp

theorem projOf_world {c : Cam K} (hv : Valid noKw c) (hin : c.params.inNdc = true) {b : List (List (V3 K))}
    (hb : b.length = c.n) (ha : Away c b) :
    (unproject noKw true false true (.batch (withDepth (projOf noKw c b) (viewOf c.R c.T b))) c).2
      = .ok (.batch b) := by
  have hz := away_view hv hb ha
  obtain ⟨w, p, t0, hw0, gw, hp, gp, ht0, gt0⟩ := full_good hv
  have h1 : fullProjection noKw c = (c, .ok t0) := by rw [← ht0]; rfl
  obtain ⟨t, htr, gt⟩ : ∃ t, unprojTransform noKw true true c = (c, .ok t) ∧ Good t (List.zipWith (· * ·)
      (List.zipWith M4.affine c.R c.T) (projMats noKw c)) := by
    unfold unprojTransform
    cases hc : c.params with
    | fovPersp l => exact ⟨t0, by simp [h1], gt0⟩
    | fovOrtho l => exact ⟨t0, by simp [h1], gt0⟩
    | persp i l =>
      refine ⟨_, ?_, good_compose_one gt0⟩
      simp only [if_true, h1]
      have : ndcCamera noKw c = .ok (.mk .base .f32 [1] []) := by unfold ndcCamera; rw [if_pos hin]
      show (c, (do
        let s ← ndcCamera noKw c
        .ok (compose t0 [s]))) = _
      rw [this]
      rfl
    | ortho i l =>
      refine ⟨_, ?_, good_compose_one gt0⟩
      simp only [if_true, h1]
      have : ndcCamera noKw c = .ok (.mk .base .f32 [1] []) := by unfold ndcCamera; rw [if_pos hin]
      show (c, (do
        let s ← ndcCamera noKw c
        .ok (compose t0 [s]))) = _
      rw [this]
      rfl
  have hR : c.R.length = c.n := hv.rlen
  have hT : c.T.length = c.n := hv.tlen
  obtain ⟨it, e3, e4⟩ := unproject_batch gt (b := b) (by simp [hb, hR, hT, hv.plen])
    (fun i h q hq => full_w_ne hv hb hz i h q hq)
  unfold unproject
  rw [htr]
  have hD : (withDepth (projOf noKw c b) (viewOf c.R c.T b)).length = c.n := by
    unfold withDepth projOf
    rw [setRT_noKw]
    unfold viewOf
    simp [hb, hR, hT, hv.plen]
  have hin' := unprojInput_eq (kw := noKw) (c := c) hv.plen hv.pdet hD
  show (do
    let x ← unprojInput noKw false c _
    let i ← inverse t
    transformPoints i none x) = _
  rw [hin', e3]
  show transformPoints it none (.batch (List.zipWith (fun l P => mapZ (zOut c.params P) l) _ (projMats noKw c))) = _
  have := rescaled hv hb hz
  rw [setRT_noKw] at this
  rw [this, projOf_eq]
  exact e4

/-- Replace the depth of projected points. -/
theorem withDepth_mapIdx {f g : Nat → V3 K → V3 K} (b : List (List (V3 K))) :
    withDepth (b.mapIdx fun i l => l.map (f i)) (b.mapIdx fun i l => l.map (g i))
      = b.mapIdx fun i l => l.map fun p => ⟨(f i p).x, (f i p).y, (g i p).z⟩ := by
  unfold withDepth
  apply List.ext_getElem
  · simp
  · intro i h1 h2
    simp only [List.getElem_zipWith, List.getElem_mapIdx]
    apply List.ext_getElem
    · simp
    · intro j h3 h4
      simp

/-- **Unprojection in NDC.** NDC coordinates with the view depth are unprojected (with `from_ndc=True`) to the
points, for all cameras. -/
theorem unproject_ndc {c : Cam K} (hv : Valid noKw c) (hn : NdcOk c) {b : List (List (V3 K))} (hb : b.length = c.n)
    (ha : Away c b) :
    (unproject noKw true false true (.batch (b.mapIdx fun i l => l.map fun p =>
      ⟨(ndcPoint c i p).x, (ndcPoint c i p).y, (viewPoint c i p).z⟩)) c).2 = .ok (.batch b) := by
  have hR : c.R.length = c.n := hv.rlen
  have hT : c.T.length = c.n := hv.tlen
  by_cases hin : c.params.inNdc = true
  · have := projOf_world hv hin hb ha
    rw [viewOf_point hR hT hb, projOf_point hv hb, withDepth_mapIdx] at this
    rw [← this]
    congr 4
    unfold ndcPoint viewToNdc
    simp only [hin, if_true]
  · have hin' : c.params.inNdc = false := by simpa using hin
    obtain ⟨hw, hi, hs⟩ := hn.resolve_left hin
    obtain ⟨w, view, xy, e1, e2, e3, e4⟩ := unproject_from_ndc hv ⟨rfl, rfl⟩ hin' rfl hi hs hb (away_view hv hb ha)
    rw [ndc_pointwise hv hn hb ha] at e3
    obtain ⟨w', e1', e2'⟩ := view_pointwise hv hb
    rw [e1] at e1'
    obtain rfl := Except.ok.inj e1'
    rw [e2] at e2'
    obtain rfl := Pts.batch.inj (Except.ok.inj e2')
    obtain rfl := Pts.batch.inj (Except.ok.inj e3)
    rw [withDepth_mapIdx] at e4
    exact e4

/-! ### The line of points with given image coordinates -/

theorem block_det {pr : Params K} {P : M4 K} (hf : Form pr P) (hd : P.det ≠ 0) :
    P 0 0 * P 1 1 - P 0 1 * P 1 0 ≠ 0 := by
  intro h
  apply hd
  have : P.det = (P 0 0 * P 1 1 - P 0 1 * P 1 0) * (P 2 2 * P 3 3 - P 2 3 * P 3 2) := by
    rw [Matrix.det_succ_row_zero]
    simp only [Fin.sum_univ_four, Matrix.det_fin_three, Matrix.submatrix_apply]
    cases pr <;> simp only [Form] at hf <;>
    · simp [hf, Fin.succAbove, Fin.lt_def]
      try ring
  rw [this, h, zero_mul]

/-- For every place of the image there is a line `o + z d` of view space, parametrised by depth, that is
projected there; it passes through the origin if the camera is a perspective camera whose calibration
matrix has the entries of the class. -/
theorem view_line {pr : Params K} {P : M4 K} (hf : Form pr P) (hd : P.det ≠ 0) (x y : K) :
    ∃ o d : V3 K, o.z = 0 ∧ d.z = 1 ∧ (pr.isPersp → P 3 0 = 0 → P 3 1 = 0 → o = 0) ∧
      ∀ z : K, (pr.isPersp → z ≠ 0) → (transformPoint none (o + z • d) P).x = x ∧ (transformPoint none (o + z • d) P).y = y := by
  have hb := block_det hf hd
  set Δ := P 0 0 * P 1 1 - P 0 1 * P 1 0 with hΔ
  by_cases hp : pr.isPersp
  · refine ⟨⟨(-P 3 0 * P 1 1 + P 3 1 * P 1 0) / Δ, (-P 0 0 * P 3 1 + P 0 1 * P 3 0) / Δ, 0⟩,
      ⟨((x - P 2 0) * P 1 1 - (y - P 2 1) * P 1 0) / Δ, (P 0 0 * (y - P 2 1) - P 0 1 * (x - P 2 0)) / Δ, 1⟩,
      rfl, rfl, ?_, ?_⟩
    · intro _ h1 h2
      rw [h1, h2]
      ext <;> simp
    · intro z hz
      have hz' := hz hp
      unfold transformPoint clampDenom
      simp only [hrow, Matrix.vecMul, dotProduct, Fin.sum_univ_four]
      cases pr with
      | fovPersp l =>
        simp only [Form] at hf
        simp [hf, V3.add_x, V3.smul_x]
        constructor
        · field_simp
          rw [hΔ]; ring
        · field_simp
          rw [hΔ]; ring
      | persp i l =>
        simp only [Form] at hf
        simp [hf]
        constructor
        · field_simp
          rw [hΔ]; ring
        · field_simp
          rw [hΔ]; ring
      | fovOrtho l => exact hp.elim
      | ortho i l => exact hp.elim
  · refine ⟨⟨((x - P 3 0) * P 1 1 - (y - P 3 1) * P 1 0) / Δ, (P 0 0 * (y - P 3 1) - P 0 1 * (x - P 3 0)) / Δ, 0⟩,
      ⟨(-P 2 0 * P 1 1 + P 2 1 * P 1 0) / Δ, (-P 0 0 * P 2 1 + P 0 1 * P 2 0) / Δ, 1⟩,
      rfl, rfl, fun h => absurd h hp, ?_⟩
    intro z _
    unfold transformPoint clampDenom
    simp only [hrow, Matrix.vecMul, dotProduct, Fin.sum_univ_four]
    cases pr with
    | fovPersp l => exact absurd trivial hp
    | persp i l => exact absurd trivial hp
    | fovOrtho l =>
      simp only [Form] at hf
      simp [hf]
      constructor
      · field_simp
        rw [hΔ]; ring
      · field_simp
        rw [hΔ]; ring
    | ortho i l =>
      simp only [Form] at hf
      simp [hf]
      constructor
      · field_simp
        rw [hΔ]; ring
      · field_simp
        rw [hΔ]; ring

/-! ### In the world -/

theorem vecMul_inv {R : M3 K} (h : R.det ≠ 0) (v : V3 K) : M3.vecMul (M3.vecMul v (R.det⁻¹ • R.adj)) R = v := by
  have e : R.det⁻¹ * R.det = 1 := inv_mul_cancel₀ h
  generalize R.det⁻¹ = f at e
  simp only [M3.det] at e
  ext <;> simp only [M3.vecMul, M3.smul_def, M3.adj] <;> grind

theorem vecMul_line (o d : V3 K) (z : K) (R : M3 K) :
    M3.vecMul (o + z • d) R = M3.vecMul o R + z • M3.vecMul d R := by
  ext <;> simp [M3.vecMul] <;> ring

/-- **The ray of an image point.** For every camera of a valid object and every place `(x, y)` in NDC there is
a line `o + z d` of world points that camera `i` sees at `(x, y)` and at view depth `z`. -/
theorem world_line {c : Cam K} (hv : Valid noKw c) (hn : NdcOk c) {i : Nat} (hi : i < c.n) (x y : K) :
    ∃ o d : V3 K, (c.params.isPersp → projMat c i 3 0 = 0 → projMat c i 3 1 = 0 → viewPoint c i o = 0) ∧
      ∀ z : K, (viewPoint c i (o + z • d)).z = z ∧ ((c.params.isPersp → z ≠ 0) →
        (ndcPoint c i (o + z • d)).x = x ∧ (ndcPoint c i (o + z • d)).y = y) := by
  have hR : c.R.length = c.n := hv.rlen
  have hT : c.T.length = c.n := hv.tlen
  have hP : projMat c i ∈ projMats noKw c := by
    unfold projMat
    rw [List.getD_eq_getElem _ _ (by rw [hv.plen]; exact hi)]
    exact List.getElem_mem _
  have hr : (c.R.getD i 1).det ≠ 0 := by
    rw [List.getD_eq_getElem _ _ (by omega)]
    exact hv.rdet _ (List.getElem_mem (h := by rw [setRT_noKw]; omega))
  -- where the projection has to be before the conversion to NDC
  obtain ⟨x', y', hxy⟩ : ∃ x' y', ∀ v : V3 K, (transformPoint none v (projMat c i)).x = x' →
      (transformPoint none v (projMat c i)).y = y' → (viewToNdc c i v).x = x ∧ (viewToNdc c i v).y = y := by
    by_cases hin : c.params.inNdc = true
    · refine ⟨x, y, fun v h1 h2 => ?_⟩
      unfold viewToNdc
      simp only [hin, if_true]
      exact ⟨h1, h2⟩
    · obtain ⟨hw, him, hs⟩ := hn.resolve_left hin
      have hh := (half_pos (hs.pick hi)).ne'
      set s := T3d.pick (0, 0) hw i with hsd
      refine ⟨half s * x + 2 * (ppOf c.params (projMat c i)).1 - s.2 / 2,
        half s * y + 2 * (ppOf c.params (projMat c i)).2 - s.1 / 2, fun v h1 h2 => ?_⟩
      unfold viewToNdc
      simp only [hin, if_false, him, Option.getD_some, Bool.false_eq_true]
      rw [ndMat_point, h1, h2, ← hsd]
      constructor
      · simp only; field_simp; ring
      · simp only; field_simp; ring
  obtain ⟨o, d, ho, hd, hc, hl⟩ := view_line (hv.form _ hP) (hv.pdet _ hP) x' y'
  set R := c.R.getD i 1 with hRd
  set T := c.T.getD i 0 with hTd
  have key : ∀ z : K, viewPoint c i (M3.vecMul (o - T) (R.det⁻¹ • R.adj) + z • M3.vecMul d (R.det⁻¹ • R.adj))
      = o + z • d := by
    intro z
    unfold viewPoint
    rw [← hRd, ← hTd, vecMul_line, vecMul_inv hr, vecMul_inv hr]
    ext <;> simp <;> ring
  refine ⟨M3.vecMul (o - T) (R.det⁻¹ • R.adj), M3.vecMul d (R.det⁻¹ • R.adj), ?_, ?_⟩
  · intro h1 h2 h3
    have := key 0
    rw [show ∀ v w : V3 K, v + (0 : K) • w = v from fun v w => by ext <;> simp] at this
    rw [this, hc h1 h2 h3]
    ext <;> simp
  · intro z
    rw [key]
    refine ⟨by simp [ho, hd], fun hz => ?_⟩
    unfold ndcPoint
    rw [key]
    exact hxy _ (hl z hz).1 (hl z hz).2

/-- The calibration matrices of the perspective classes send the origin of view space to infinity. -/
theorem calib_centre {c : Cam K} (hk : c.kmat = none) (hp : c.params.isPersp) {i : Nat}
    (hi : i < (projMats noKw c).length) : projMat c i 3 0 = 0 ∧ projMat c i 3 1 = 0 := by
  have hP : projMat c i ∈ projMats noKw c := by
    unfold projMat
    rw [List.getD_eq_getElem _ _ hi]
    exact List.getElem_mem _
  generalize projMat c i = P at hP
  unfold projMats at hP
  simp only [noKw, hk, Option.or_none, Option.getD_none] at hP
  obtain ⟨m, hm, rfl⟩ := List.mem_map.mp hP
  cases hc : c.params with
  | fovPersp l =>
    rw [hc] at hm
    obtain ⟨p, _, rfl⟩ := List.mem_map.mp hm
    simp [fovPerspMat]
  | persp b l =>
    rw [hc] at hm
    obtain ⟨p, _, rfl⟩ := List.mem_map.mp hm
    simp [perspMat]
  | fovOrtho l => rw [hc] at hp; exact hp.elim
  | ortho b l => rw [hc] at hp; exact hp.elim

end P3D.Camera
