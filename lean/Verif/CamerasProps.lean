/-
C26 and C27: projection and unprojection, NDC and screen space.
-/
import Verif.Cameras
import Verif.Transform3dProps
import Mathlib.Tactic.FinCases
import Mathlib.Tactic.FieldSimp
import Mathlib.Tactic.Positivity

set_option linter.unusedSectionVars false
set_option linter.unusedSimpArgs false

namespace P3D.Camera
open T3d

section lists
variable {α β γ : Type*}

theorem pick_lt (d : α) (a : List α) (i : Nat) (h : i < a.length) : pick d a i = a[i] := by
  unfold pick
  split_ifs with h1
  · have : i = 0 := by omega
    subst this
    simp [List.getD_eq_getElem?_getD, h]
  · simp [List.getD_eq_getElem?_getD, h]

theorem bcast_zip {da : α} {db : β} {f : α → β → γ} {a : List α} {b : List β} (h : a.length = b.length) :
    bcast da db f a b = some (List.zipWith f a b) := by
  unfold bcast blen
  rw [if_pos h, Option.map_some]
  congr 1
  apply List.ext_getElem
  · simp [h]
  · intro i h1 h2
    simp only [List.length_map, List.length_range] at h1
    simp only [List.getElem_map, List.getElem_range, List.getElem_zipWith]
    rw [pick_lt _ _ _ h1, pick_lt _ _ _ (h ▸ h1)]

end lists

variable {K : Type*} [Field K]

/-! ### Transforms with known invertible matrices -/

theorem kindOk_det {k : Kind} {m : M4 K} (h : KindOk k m) : m.det ≠ 0 :=
  (Matrix.isUnit_det_of_right_inverse (inverseMat_ok h).2).ne_zero

/-- `t` is invertible in every part and has the matrices `ms`. -/
def Good (t : T3 K) (ms : List (M4 K)) : Prop := Ok t ∧ getMatrix t = some ms

theorem oks_append : ∀ (a b : List (T3 K)), Oks a → Oks b → Oks (a ++ b)
  | [], _, _, hb => hb
  | t :: a, b, ha, hb => by
    rw [Oks] at ha
    rw [List.cons_append, Oks]
    exact ⟨ha.1, oks_append a b ha.2 hb⟩

theorem good_compose {t s : T3 K} {ms ns : List (M4 K)} (ht : Good t ms) (hs : Good s ns)
    (hl : ms.length = ns.length) : Good (compose t [s]) (List.zipWith (· * ·) ms ns) := by
  constructor
  · obtain ⟨k, d, m, ts⟩ := t
    have h1 := ht.1
    rw [Ok] at h1
    rw [compose, Ok]
    refine ⟨fun x hx => kindOk_det (h1.1 x hx), oks_append _ _ h1.2 ?_⟩
    rw [Oks, Oks]
    exact ⟨hs.1, trivial⟩
  · have := matB_compose t [s]
    rw [show ([s].map matB).prod = matB s by simp] at this
    unfold matB at this
    rw [this, ht.2, hs.2]
    show bmm ms ns = _
    unfold bmm
    rw [bcast_zip hl]

theorem good_base (d : DType) {m : List (M4 K)} (h : ∀ x ∈ m, x.det ≠ 0) : Good (.mk .base d m []) m := by
  constructor
  · rw [Ok, Oks]; exact ⟨h, trivial⟩
  · rw [getMatrix, composeAll]

/-- The inverse of a good transform has the inverse matrices. -/
theorem good_inverse {t : T3 K} {ms : List (M4 K)} (h : Good t ms) :
    ∃ it, inverse t = .ok it ∧ getMatrix it = some (ms.map (·⁻¹)) ∧ ∀ x ∈ ms, x * x⁻¹ = 1 := by
  obtain ⟨it, h1, h2⟩ := inverse_spec t h.1
  refine ⟨it, h1, ?_, ok_unit t h.1 ms h.2⟩
  have : matB t = (some ms : B K) := h.2
  rw [this] at h2
  exact h2

theorem affine_det {A : M3 K} (h : A.det ≠ 0) (t : V3 K) : (M4.affine A t).det ≠ 0 := by
  have h1 : A * (A.det⁻¹ • A.adj) = 1 := by
    have := M3.mul_adj A
    have hs : ∀ (c : K) (x y : M3 K), x * (c • y) = c • (x * y) := by
      intro c x y; ext <;> simp only [M3.mul_def, M3.smul_def] <;> ring
    rw [hs, this]
    ext <;> simp [M3.smul_def, h]
  have : M4.affine A t * M4.affine (A.det⁻¹ • A.adj) (-(M3.vecMul t (A.det⁻¹ • A.adj))) = 1 := by
    rw [affine_mul, h1, add_neg_cancel, affine_one]
  exact (Matrix.isUnit_det_of_right_inverse this).ne_zero

/-- World-to-view matrices. -/
theorem worldToView_good {R : List (M3 K)} {T : List (V3 K)} (hl : T.length = R.length)
    (hR : ∀ r ∈ R, r.det ≠ 0) :
    ∃ w, worldToView R T = .ok w ∧ Good w (List.zipWith M4.affine R T) := by
  unfold worldToView
  rw [if_neg (by simpa using hl)]
  refine ⟨_, rfl, ?_⟩
  have h1 : Good (T3.mk .base .f32 (R.map rotateMat) []) (R.map rotateMat) := by
    apply good_base
    intro x hx
    obtain ⟨r, hr, rfl⟩ := List.mem_map.mp hx
    exact affine_det (hR r hr) 0
  have h2 : Good (T3.mk .translate .f32 (T.map translateMat) []) (T.map translateMat) := by
    constructor
    · rw [Ok, Oks]
      refine ⟨fun x hx => ?_, trivial⟩
      obtain ⟨v, _, rfl⟩ := List.mem_map.mp hx
      exact ⟨v, rfl⟩
    · rw [getMatrix, composeAll]
  have h3 := good_compose h1 h2 (by simp [hl])
  have : List.zipWith (· * ·) (R.map rotateMat) (T.map translateMat) = List.zipWith M4.affine R T := by
    rw [List.zipWith_map]
    congr 1
    funext r t
    unfold rotateMat translateMat
    rw [affine_mul]
    congr 1
    · ext <;> simp [M3.mul_def, M3.one_def]
    · ext <;> simp [M3.vecMul, M3.one_def]
  rw [this] at h3
  exact h3

/-! ### C26 -/

section points
variable [LinearOrder K] [IsStrictOrderedRing K]

theorem transformPoints_zip {t : T3 K} {ms : List (M4 K)} {b : List (List (V3 K))} (h : getMatrix t = some ms)
    (hl : b.length = ms.length) : transformPoints t none (.batch b)
      = .ok (.batch (List.zipWith (fun ps m => ps.map fun p => transformPoint none p m) b ms)) := by
  unfold transformPoints
  rw [h]
  simp only [Pts.toBatch]
  rw [bcast_zip hl]
  simp only [outShape]

theorem transformPoint_one (p : V3 K) : transformPoint none p 1 = p := by
  rw [← affine_one, transformPoint_affine]
  ext <;> simp [M3.vecMul, M3.one_def]

/-- A projective map is undone by the inverse matrix. -/
theorem transformPoint_inv {p : V3 K} {m : M4 K} (h : m * m⁻¹ = 1) (hw : Matrix.vecMul (hrow p) m 3 ≠ 0) :
    transformPoint none (transformPoint none p m) m⁻¹ = p := by
  rw [transformPoint_mul _ _ _ hw, h, transformPoint_one]

theorem affine_w (p : V3 K) (A : M3 K) (t : V3 K) : Matrix.vecMul (hrow p) (M4.affine A t) 3 = 1 := by
  simp [hrow, M4.affine, Matrix.vecMul, dotProduct, Fin.sum_univ_four]

/-- The shape a (transposed) projection matrix needs so that depth can be recovered: the calibration
matrices computed by the classes have it (`calib_form`), and so must a matrix `K` given by the user. -/
def Form : Params K → M4 K → Prop
  | .fovPersp _, P => P 0 2 = 0 ∧ P 1 2 = 0 ∧ P 0 3 = 0 ∧ P 1 3 = 0 ∧ P 2 3 = 1 ∧ P 3 3 = 0
  | .fovOrtho _, P => P 0 2 = 0 ∧ P 1 2 = 0 ∧ P 0 3 = 0 ∧ P 1 3 = 0 ∧ P 2 3 = 0 ∧ P 3 3 = 1
  | .persp _ _, P => P 0 2 = 0 ∧ P 1 2 = 0 ∧ P 2 2 = 0 ∧ P 3 2 = 1 ∧ P 0 3 = 0 ∧ P 1 3 = 0 ∧ P 2 3 = 1 ∧ P 3 3 = 0
  | .ortho _ _, P => P 0 2 = 0 ∧ P 1 2 = 0 ∧ P 2 2 = 1 ∧ P 3 2 = 0 ∧ P 0 3 = 0 ∧ P 1 3 = 0 ∧ P 2 3 = 0 ∧ P 3 3 = 1

/-- Perspective classes: `is_perspective()`. -/
def Params.isPersp : Params K → Prop
  | .fovPersp _ => True
  | .persp _ _ => True
  | _ => False

/-- Third coordinate of the projection as a function of the view depth. -/
def zOut : Params K → M4 K → K → K
  | .fovPersp _, P, d => scaleDepthP P d
  | .fovOrtho _, P, d => scaleDepthO P d
  | .persp _ _, _, d => d⁻¹
  | .ortho _ _, _, d => d

theorem form_z {pr : Params K} {P : M4 K} (hf : Form pr P) {v : V3 K} (hz : pr.isPersp → v.z ≠ 0) :
    (transformPoint none v P).z = zOut pr P v.z ∧ Matrix.vecMul (hrow v) P 3 ≠ 0 := by
  unfold transformPoint clampDenom
  simp only [hrow, Matrix.vecMul, dotProduct, Fin.sum_univ_four]
  cases pr <;>
  · simp only [Form] at hf
    simp [hf, zOut, scaleDepthP, scaleDepthO, mul_comm]
    try exact hz trivial

/-- Replace depths: the xy part of one tensor with the z part of another, `torch.cat((xy, depth))`. -/
def withDepth (xy view : List (List (V3 K))) : List (List (V3 K)) :=
  List.zipWith (List.zipWith fun a b => (⟨a.x, a.y, b.z⟩ : V3 K)) xy view

/-- The projection matrices (row-vector form) a call uses. -/
def projMats (kw : Kw K) (c : Cam K) : List (M4 K) :=
  ((kw.kmat.or c.kmat).getD (calib (kw.params.getD c.params))).map Matrix.transpose

/-- A usable camera for a call with keyword arguments `kw`. -/
structure Valid (kw : Kw K) (c : Cam K) : Prop where
  rlen : (setRT kw c).R.length = c.n
  tlen : (setRT kw c).T.length = c.n
  plen : (projMats kw c).length = c.n
  rdet : ∀ r ∈ (setRT kw c).R, r.det ≠ 0
  pdet : ∀ P ∈ projMats kw c, P.det ≠ 0
  form : ∀ P ∈ projMats kw c, Form c.params P

theorem projection_good {kw : Kw K} {c : Cam K} (hl : (projMats kw c).length = c.n)
    (hd : ∀ P ∈ projMats kw c, P.det ≠ 0) : ∃ p, projection kw c = .ok p ∧ Good p (projMats kw c) := by
  unfold projection
  unfold projMats at hl hd ⊢
  rcases h : kw.kmat.or c.kmat with _ | ks
  · rw [h] at hd
    exact ⟨_, rfl, good_base _ hd⟩
  · rw [h] at hd hl
    simp only [Option.getD_some, List.length_map] at hl
    simp only [hl, ne_eq, not_true, if_false]
    exact ⟨_, rfl, good_base _ hd⟩

theorem projection_setRT (kw : Kw K) (c : Cam K) (kw' : Kw K) : projection kw (setRT kw' c) = projection kw c := rfl

/-- The full projection: world-to-view times projection. -/
theorem full_good {kw : Kw K} {c : Cam K} (hv : Valid kw c) : ∃ w p t,
    worldToView (setRT kw c).R (setRT kw c).T = .ok w
    ∧ Good w (List.zipWith M4.affine (setRT kw c).R (setRT kw c).T)
    ∧ projection kw c = .ok p ∧ Good p (projMats kw c)
    ∧ (fullProjection kw c).2 = .ok t
    ∧ Good t (List.zipWith (· * ·) (List.zipWith M4.affine (setRT kw c).R (setRT kw c).T) (projMats kw c)) := by
  obtain ⟨w, hw, gw⟩ := worldToView_good (hv.tlen.trans hv.rlen.symm) hv.rdet
  obtain ⟨p, hp, gp⟩ := projection_good hv.plen hv.pdet
  refine ⟨w, p, compose w [p], hw, gw, hp, gp, ?_, ?_⟩
  · unfold fullProjection
    rw [projection_setRT, hw, hp]
    rfl
  · exact good_compose gw gp (by simp [hv.rlen, hv.tlen, hv.plen])

/-- Points in view coordinates, one list per camera: `X R + T`. -/
def viewOf (R : List (M3 K)) (T : List (V3 K)) (b : List (List (V3 K))) : List (List (V3 K)) :=
  List.zipWith (fun ps (rt : M3 K × V3 K) => ps.map fun p => M3.vecMul p rt.1 + rt.2) b (R.zip T)

theorem mapZ_id (l : List (V3 K)) : mapZ (fun d => d) l = l := by
  unfold mapZ
  conv_rhs => rw [← List.map_id l]
  rfl

theorem zipWith_const {α β : Type*} (f : α → α) : ∀ (a : List α) (b : List β), a.length = b.length →
    List.zipWith (fun x _ => f x) a b = a.map f
  | [], [], _ => rfl
  | x :: a, y :: b, h => by simp [zipWith_const f a b (by simpa using h)]

theorem scaleDepths_zip {persp : Bool} {ms : List (M4 K)} {D : List (List (V3 K))} (hl : D.length = ms.length) :
    scaleDepths persp ms (.batch D) = .ok (.batch (List.zipWith
      (fun l P => mapZ ((if persp then scaleDepthP else scaleDepthO) P) l) D ms)) := by
  unfold scaleDepths
  simp only
  rw [if_pos (Or.inr hl.symm)]
  congr 2
  apply List.ext_getElem
  · simp [hl]
  · intro i h1 h2
    simp only [List.length_map, List.length_range] at h1
    simp only [List.getElem_map, List.getElem_range, List.getElem_zipWith]
    rw [pick_lt _ _ _ (hl ▸ h1)]
    simp [List.getD_eq_getElem?_getD, h1]

/-- The tensor given to the inverted transform when depths are in world units. -/
theorem unprojInput_eq {kw : Kw K} {c : Cam K} (hl : (projMats kw c).length = c.n)
    (hd : ∀ P ∈ projMats kw c, P.det ≠ 0) {D : List (List (V3 K))} (hD : D.length = c.n) :
    unprojInput kw false c (.batch D)
      = .ok (.batch (List.zipWith (fun l P => mapZ (zOut c.params P) l) D (projMats kw c))) := by
  obtain ⟨p, hp, gp⟩ := projection_good hl hd
  have hf : ∀ persp, fovScaled persp false kw c (.batch D) = .ok (.batch (List.zipWith
      (fun l P => mapZ ((if persp then scaleDepthP else scaleDepthO) P) l) D (projMats kw c))) := by
    intro persp
    unfold fovScaled
    rw [if_neg (by simp), hp]
    show (match getMatrix p with
      | none => Except.error Err.value
      | some ms => scaleDepths persp ms (.batch D)) = _
    rw [gp.2]
    exact scaleDepths_zip (hD.trans hl.symm)
  unfold unprojInput
  cases hc : c.params with
  | fovPersp l => simp only [hf]; rfl
  | fovOrtho l => simp only [hf]; rfl
  | persp i l =>
    show Except.ok (Pts.batch (D.map (mapZ (·⁻¹))))
      = .ok (.batch (List.zipWith (fun l _ => mapZ (·⁻¹) l) D (projMats kw c)))
    rw [zipWith_const _ _ _ (hD.trans hl.symm)]
  | ortho i l =>
    show Except.ok (Pts.batch D) = .ok (.batch (List.zipWith (fun l _ => mapZ (fun d => d) l) D (projMats kw c)))
    rw [zipWith_const _ _ _ (hD.trans hl.symm)]
    congr 2
    conv_lhs => rw [← List.map_id D]
    apply List.map_congr_left
    intro l _
    exact (mapZ_id l).symm

/-- Projection of one point is projection of its view coordinates. -/
theorem tp_full (p : V3 K) (r : M3 K) (t : V3 K) (P : M4 K) :
    transformPoint none p (M4.affine r t * P) = transformPoint none (M3.vecMul p r + t) P := by
  rw [← transformPoint_mul _ _ _ (by rw [affine_w]; exact one_ne_zero), transformPoint_affine]

theorem full_w (p : V3 K) (r : M3 K) (t : V3 K) (P : M4 K) :
    Matrix.vecMul (hrow p) (M4.affine r t * P) 3 = Matrix.vecMul (hrow (M3.vecMul p r + t)) P 3 := by
  rw [← Matrix.vecMul_vecMul]
  congr 2
  funext i
  fin_cases i <;>
    simp [hrow, M4.affine, Matrix.vecMul, dotProduct, Fin.sum_univ_four, M3.vecMul]

/-- Expected projected points: view coordinates, then the projection matrix. -/
def projOf (kw : Kw K) (c : Cam K) (b : List (List (V3 K))) : List (List (V3 K)) :=
  List.zipWith (fun ps P => ps.map fun p => transformPoint none p P)
    (viewOf (setRT kw c).R (setRT kw c).T b) (projMats kw c)

theorem view_eq {w : T3 K} {R : List (M3 K)} {T : List (V3 K)} (hw : Good w (List.zipWith M4.affine R T))
    (hl : R.length = T.length) {b : List (List (V3 K))} (hb : b.length = R.length) :
    transformPoints w none (.batch b) = .ok (.batch (viewOf R T b)) := by
  rw [transformPoints_zip hw.2 (by simp [hb, ← hl])]
  congr 2
  unfold viewOf
  apply List.ext_getElem
  · simp
  · intro i h1 h2
    simp only [List.getElem_zipWith, List.getElem_zip, transformPoint_affine]

/-- **C26 (keyword arguments of the view transform).** The view transform uses the given `R` and `T`, or those stored in
the object, and maps `X` to `X R + T`. -/
theorem worldToView_given {kw : Kw K} {c : Cam K} {R : List (M3 K)} {T : List (V3 K)}
    (hR : kw.R = some R ∨ kw.R = none ∧ c.R = R) (hT : kw.T = some T ∨ kw.T = none ∧ c.T = T)
    (hl : T.length = R.length) (hd : ∀ r ∈ R, r.det ≠ 0) {b : List (List (V3 K))} (hb : b.length = R.length) :
    ∃ w, (getWorldToView kw c).2 = .ok w ∧ transformPoints w none (.batch b)
      = .ok (.batch (List.zipWith (fun ps (rt : M3 K × V3 K) => ps.map fun p => M3.vecMul p rt.1 + rt.2) b (R.zip T))) := by
  have eR : (setRT kw c).R = R := by
    rcases hR with h | ⟨h, h'⟩ <;> simp [setRT, h]; exact h'
  have eT : (setRT kw c).T = T := by
    rcases hT with h | ⟨h, h'⟩ <;> simp [setRT, h]; exact h'
  obtain ⟨w, hw, gw⟩ := worldToView_good hl hd
  refine ⟨w, ?_, view_eq gw hl.symm hb⟩
  show worldToView (setRT kw c).R (setRT kw c).T = _
  rw [eR, eT, hw]

/-- **C26 (projection).** `transform_points` maps `X` to `(X R + T)` and then applies the projection matrix. -/
theorem transformPts_eq {kw : Kw K} {c : Cam K} (hv : Valid kw c) {b : List (List (V3 K))}
    (hb : b.length = c.n) : (transformPts kw none (.batch b) c).2 = .ok (.batch (projOf kw c b)) := by
  obtain ⟨w, p, t, hw, gw, hp, gp, ht, gt⟩ := full_good hv
  unfold transformPts
  simp only [ht]
  show transformPoints t none (.batch b) = _
  rw [transformPoints_zip gt.2 (by simp [hb, hv.rlen, hv.tlen, hv.plen])]
  congr 2
  unfold projOf viewOf
  apply List.ext_getElem
  · simp
  · intro i h1 h2
    simp only [List.getElem_zipWith, List.getElem_zip, tp_full, List.map_map]
    rfl

/-- Undoing a batch of projective maps. -/
theorem unproject_batch {t : T3 K} {ms : List (M4 K)} (g : Good t ms) {b : List (List (V3 K))}
    (hl : b.length = ms.length)
    (hw : ∀ i (h : i < b.length), ∀ p ∈ b[i], Matrix.vecMul (hrow p) (ms[i]'(hl ▸ h)) 3 ≠ 0) :
    ∃ it, inverse t = .ok it ∧ transformPoints it none
      (.batch (List.zipWith (fun ps m => ps.map fun p => transformPoint none p m) b ms)) = .ok (.batch b) := by
  obtain ⟨it, h1, h2, h3⟩ := good_inverse g
  refine ⟨it, h1, ?_⟩
  rw [transformPoints_zip h2 (by simp [hl])]
  congr 2
  apply List.ext_getElem
  · simp [hl]
  · intro i ha hb
    simp only [List.getElem_zipWith, List.getElem_map, List.map_map]
    conv_rhs => rw [← List.map_id b[i]]
    apply List.map_congr_left
    intro p hp
    exact transformPoint_inv (h3 _ (List.getElem_mem _)) (hw i hb p hp)

theorem withDepth_map {f g : V3 K → V3 K} (l : List (V3 K)) :
    List.zipWith (fun a b => (⟨a.x, a.y, b.z⟩ : V3 K)) (l.map f) (l.map g)
      = l.map fun p => ⟨(f p).x, (f p).y, (g p).z⟩ := by
  induction l with
  | nil => rfl
  | cons x l ih => simp [ih]

theorem setRT_setRT (kw : Kw K) (c : Cam K) : setRT kw (setRT kw c) = setRT kw c := by
  unfold setRT
  cases kw.R <;> cases kw.T <;> rfl

/-- Rescaling the depths of the projected points gives the projected points back. -/
theorem rescaled {kw : Kw K} {c : Cam K} (hv : Valid kw c) {b : List (List (V3 K))} (hb : b.length = c.n)
    (hz : c.params.isPersp → ∀ l ∈ viewOf (setRT kw c).R (setRT kw c).T b, ∀ v ∈ l, v.z ≠ 0) :
    List.zipWith (fun l P => mapZ (zOut c.params P) l)
      (withDepth (projOf kw c b) (viewOf (setRT kw c).R (setRT kw c).T b)) (projMats kw c) = projOf kw c b := by
  unfold projOf
  generalize hV : viewOf (setRT kw c).R (setRT kw c).T b = V at *
  have hVl : V.length = c.n := by rw [← hV]; unfold viewOf; simp [hb, hv.rlen, hv.tlen]
  have hl := hv.plen
  have hform := hv.form
  generalize projMats kw c = Ps at *
  unfold withDepth
  apply List.ext_getElem
  · simp
  · intro i h1 h2
    simp only [List.getElem_zipWith]
    have := withDepth_map (f := fun p => transformPoint none p (Ps[i]'(by simp at h2; omega))) (g := id)
      (V[i]'(by simp at h2; omega))
    rw [List.map_id] at this
    rw [this]
    unfold mapZ
    rw [List.map_map]
    apply List.map_congr_left
    intro v hv'
    have hf := (form_z (hform _ (List.getElem_mem (by simp at h2; omega : i < Ps.length))) (v := v)
      (fun hp => hz hp _ (List.getElem_mem _) v hv')).1
    simp only [Function.comp, id]
    rw [← hf]

/-- FoVPerspectiveCameras ignore keyword arguments for the intrinsics when unprojecting. -/
def KwOk (kw : Kw K) (c : Cam K) : Prop :=
  match c.params with
  | .fovPersp _ => kw.kmat = none ∧ kw.params = none
  | _ => True

theorem unprojTransform_good {kw : Kw K} {c : Cam K} (hv : Valid kw c) (hk : KwOk kw c) :
    (unprojTransform kw true false (setRT kw c)).1 = setRT kw c ∧
    ∃ t, (unprojTransform kw true false (setRT kw c)).2 = .ok t ∧
      Good t (List.zipWith (· * ·) (List.zipWith M4.affine (setRT kw c).R (setRT kw c).T) (projMats kw c)) := by
  obtain ⟨w, p, t, hw, gw, hp, gp, ht, gt⟩ := full_good hv
  have hfull : fullProjection kw (setRT kw c) = fullProjection kw c := by
    unfold fullProjection
    rw [setRT_setRT]
  have h1 : (fullProjection kw c).1 = setRT kw c := rfl
  cases hc : c.params with
  | fovPersp l =>
    unfold KwOk at hk
    rw [hc] at hk
    have e : fullProjection noKw (setRT kw c) = fullProjection kw c := by
      unfold fullProjection
      have : projection noKw (setRT kw c) = projection kw (setRT kw c) := by
        unfold projection noKw
        simp only [hk.1, hk.2]
      have e2 : setRT noKw (setRT kw c) = setRT kw c := rfl
      rw [e2, this]
    have : unprojTransform kw true false (setRT kw c) = fullProjection kw c := by
      unfold unprojTransform
      rw [show (setRT kw c).params = c.params from rfl, hc]
      simp only [if_true]
      exact e
    rw [this]
    exact ⟨rfl, t, ht, gt⟩
  | fovOrtho l =>
    have : unprojTransform kw true false (setRT kw c) = fullProjection kw c := by
      unfold unprojTransform
      rw [show (setRT kw c).params = c.params from rfl, hc]
      simp only [if_true]
      exact hfull
    rw [this]
    exact ⟨rfl, t, ht, gt⟩
  | persp i l =>
    unfold unprojTransform
    rw [show (setRT kw c).params = c.params from rfl, hc]
    simp only [if_true, hfull, ht]
    exact ⟨h1, t, rfl, gt⟩
  | ortho i l =>
    unfold unprojTransform
    rw [show (setRT kw c).params = c.params from rfl, hc]
    simp only [if_true, hfull, ht]
    exact ⟨h1, t, rfl, gt⟩

theorem projOf_eq {kw : Kw K} {c : Cam K} (b : List (List (V3 K))) :
    projOf kw c b = List.zipWith (fun ps m => ps.map fun p => transformPoint none p m) b
      (List.zipWith (· * ·) (List.zipWith M4.affine (setRT kw c).R (setRT kw c).T) (projMats kw c)) := by
  unfold projOf viewOf
  apply List.ext_getElem
  · simp
  · intro i h1 h2
    simp only [List.getElem_zipWith, List.getElem_zip, tp_full, List.map_map]
    rfl

theorem full_w_ne {kw : Kw K} {c : Cam K} (hv : Valid kw c) {b : List (List (V3 K))} (hb : b.length = c.n)
    (hz : c.params.isPersp → ∀ l ∈ viewOf (setRT kw c).R (setRT kw c).T b, ∀ v ∈ l, v.z ≠ 0)
    (i : Nat) (hi : i < b.length) (p : V3 K) (hp : p ∈ b[i]) :
    Matrix.vecMul (hrow p) ((List.zipWith (· * ·) (List.zipWith M4.affine (setRT kw c).R (setRT kw c).T)
      (projMats kw c))[i]'(by simp [hv.rlen, hv.tlen, hv.plen, ← hb, hi])) 3 ≠ 0 := by
  simp only [List.getElem_zipWith]
  rw [full_w]
  refine (form_z (hv.form _ (List.getElem_mem _)) (v := _) ?_).2
  intro hpz
  have hil : i < (viewOf (setRT kw c).R (setRT kw c).T b).length := by
    unfold viewOf; simp [hv.rlen, hv.tlen, ← hb, hi]
  apply hz hpz _ (List.getElem_mem hil)
  simp only [viewOf, List.getElem_zipWith, List.getElem_zip, List.mem_map]
  exact ⟨p, hp, rfl⟩

/-- **C26 (world coordinates).** Project points, append their view depth to the xy part, and unproject:
the points come back, for the four classes, computed or user-given projection matrices, any keyword
arguments (`R` and `T` only for FoVPerspectiveCameras), batches of any size. -/
theorem unproject_world {kw : Kw K} {c : Cam K} (hv : Valid kw c) (hk : KwOk kw c) {b : List (List (V3 K))}
    (hb : b.length = c.n)
    (hz : c.params.isPersp → ∀ l ∈ viewOf (setRT kw c).R (setRT kw c).T b, ∀ v ∈ l, v.z ≠ 0) :
    ∃ w view xy, (getWorldToView kw c).2 = .ok w
      ∧ transformPoints w none (.batch b) = .ok (.batch view)
      ∧ (transformPts kw none (.batch b) c).2 = .ok (.batch xy)
      ∧ (unproject kw true false false (.batch (withDepth xy view)) (transformPts kw none (.batch b) c).1).2
        = .ok (.batch b) := by
  obtain ⟨w, p, t0, hw, gw, hp, gp, ht0, gt0⟩ := full_good hv
  refine ⟨w, viewOf (setRT kw c).R (setRT kw c).T b, projOf kw c b, hw,
    view_eq gw (hv.rlen.trans hv.tlen.symm) (hb.trans hv.rlen.symm), transformPts_eq hv hb, ?_⟩
  have hc1 : (transformPts kw none (.batch b) c).1 = setRT kw c := rfl
  rw [hc1]
  obtain ⟨e1, t, e2, gt⟩ := unprojTransform_good hv hk
  obtain ⟨it, e3, e4⟩ := unproject_batch gt (b := b) (by simp [hb, hv.rlen, hv.tlen, hv.plen])
    (fun i h q hq => full_w_ne hv hb hz i h q hq)
  unfold unproject
  rw [e1, e2]
  have hD : (withDepth (projOf kw c b) (viewOf (setRT kw c).R (setRT kw c).T b)).length = (setRT kw c).n := by
    show _ = c.n
    unfold withDepth projOf viewOf
    simp [hb, hv.rlen, hv.tlen, hv.plen]
  have hin := unprojInput_eq (kw := kw) (c := setRT kw c) hv.plen hv.pdet hD
  show (do
    let x ← unprojInput kw false (setRT kw c) _
    let i ← inverse t
    transformPoints i none x) = _
  rw [hin, e3]
  show transformPoints it none (.batch (List.zipWith (fun l P => mapZ (zOut c.params P) l) _ (projMats kw c))) = _
  rw [rescaled hv hb hz, projOf_eq]
  exact e4

/-- **C26 (scaled depth).** FoV cameras with `scaled_depth_input=True`: the output of `transform_points`
is unprojected to the points themselves. -/
theorem unproject_scaled {kw : Kw K} {c : Cam K} (hv : Valid kw c) (hk : KwOk kw c) {b : List (List (V3 K))}
    (hb : b.length = c.n)
    (hz : c.params.isPersp → ∀ l ∈ viewOf (setRT kw c).R (setRT kw c).T b, ∀ v ∈ l, v.z ≠ 0)
    (hfov : (∃ l, c.params = .fovPersp l) ∨ ∃ l, c.params = .fovOrtho l) :
    ∃ q, (transformPts kw none (.batch b) c).2 = .ok q
      ∧ (unproject kw true true false q (transformPts kw none (.batch b) c).1).2 = .ok (.batch b) := by
  refine ⟨_, transformPts_eq hv hb, ?_⟩
  have hc1 : (transformPts kw none (.batch b) c).1 = setRT kw c := rfl
  rw [hc1]
  obtain ⟨e1, t, e2, gt⟩ := unprojTransform_good hv hk
  obtain ⟨it, e3, e4⟩ := unproject_batch gt (b := b) (by simp [hb, hv.rlen, hv.tlen, hv.plen])
    (fun i h q hq => full_w_ne hv hb hz i h q hq)
  unfold unproject
  rw [e1, e2]
  have hin : ∀ x, unprojInput kw true (setRT kw c) x = .ok x := by
    intro x
    unfold unprojInput
    rw [show (setRT kw c).params = c.params from rfl]
    rcases hfov with ⟨l, h⟩ | ⟨l, h⟩ <;> rw [h] <;> simp [fovScaled]
  show (do
    let x ← unprojInput kw true (setRT kw c) _
    let i ← inverse t
    transformPoints i none x) = _
  rw [hin, e3]
  show transformPoints it none (.batch (projOf kw c b)) = _
  rw [projOf_eq]
  exact e4

/-- **C26 (view coordinates).** With `world_coordinates=False` the view coordinates come back. -/
theorem unproject_view {kw : Kw K} {c : Cam K} (hv : Valid kw c) (hk : KwOk kw c) {b : List (List (V3 K))}
    (hb : b.length = c.n)
    (hz : c.params.isPersp → ∀ l ∈ viewOf (setRT kw c).R (setRT kw c).T b, ∀ v ∈ l, v.z ≠ 0) :
    ∃ w view xy, (getWorldToView kw c).2 = .ok w
      ∧ transformPoints w none (.batch b) = .ok (.batch view)
      ∧ (transformPts kw none (.batch b) c).2 = .ok (.batch xy)
      ∧ (unproject kw false false false (.batch (withDepth xy view)) (transformPts kw none (.batch b) c).1).2
        = .ok (.batch view) := by
  obtain ⟨w, p, t0, hw, gw, hp, gp, ht0, gt0⟩ := full_good hv
  refine ⟨w, viewOf (setRT kw c).R (setRT kw c).T b, projOf kw c b, hw,
    view_eq gw (hv.rlen.trans hv.tlen.symm) (hb.trans hv.rlen.symm), transformPts_eq hv hb, ?_⟩
  have hc1 : (transformPts kw none (.batch b) c).1 = setRT kw c := rfl
  rw [hc1]
  have htr : unprojTransform kw false false (setRT kw c) = (setRT kw c, .ok p) := by
    unfold unprojTransform
    rw [show (setRT kw c).params = c.params from rfl]
    have hp' : projection kw (setRT kw c) = .ok p := hp
    cases hc : c.params with
    | fovPersp l =>
      unfold KwOk at hk
      rw [hc] at hk
      have : projection noKw (setRT kw c) = projection kw (setRT kw c) := by
        unfold projection noKw
        simp only [hk.1, hk.2]
      simp [this, hp']
    | fovOrtho l => simp [hp']
    | persp i l => simp only [hp']; rfl
    | ortho i l => simp only [hp']; rfl
  have hVl : (viewOf (setRT kw c).R (setRT kw c).T b).length = (projMats kw c).length := by
    unfold viewOf; simp [hb, hv.rlen, hv.tlen, hv.plen]
  obtain ⟨it, e3, e4⟩ := unproject_batch gp hVl
    (fun i h q hq => (form_z (hv.form _ (List.getElem_mem _)) (fun hpz => hz hpz _ (List.getElem_mem h) q hq)).2)
  unfold unproject
  rw [htr]
  have hD : (withDepth (projOf kw c b) (viewOf (setRT kw c).R (setRT kw c).T b)).length = (setRT kw c).n := by
    show _ = c.n
    unfold withDepth projOf viewOf
    simp [hb, hv.rlen, hv.tlen, hv.plen]
  have hin := unprojInput_eq (kw := kw) (c := setRT kw c) hv.plen hv.pdet hD
  show (do
    let x ← unprojInput kw false (setRT kw c) _
    let i ← inverse p
    transformPoints i none x) = _
  rw [hin, e3]
  show transformPoints it none (.batch (List.zipWith (fun l P => mapZ (zOut c.params P) l) _ (projMats kw c))) = _
  rw [rescaled hv hb hz]
  exact e4

end points
end P3D.Camera
