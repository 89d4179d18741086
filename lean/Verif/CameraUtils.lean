/-
`renderer/camera_utils.py`: `camera_to_eye_at_up`, `rotate_on_spot` and `join_cameras_as_batch`.

Extrinsics act on row vectors: a point `q` is seen at `q R + T`.  The first two functions are modelled for one camera, with
`rotate_on_spot` also for batches.
-/
import Verif.Raysampling
import Verif.CameraPlace
import Mathlib.Data.List.GetD

set_option linter.unusedSectionVars false

namespace P3D.CameraUtils

open M3 Camera Rays

/-! ## Model -/

section model
variable {K : Type} [Field K] [DecidableEq K]

/-- The point in view coordinates: `get_world_to_view_transform(R, T).transform_points`. -/
def view (R : M3 K) (T q : V3 K) : V3 K := vecMul q R + T

/-- `Transform3d.inverse` of a rotation followed by a translation: `none` for singular matrices. -/
def unview (R : M3 K) (T y : V3 K) : Option (V3 K) :=
  if R.det = 0 then none else some (vecMul (y - T) (R.det⁻¹ • R.adj))

/-- `camera_to_eye_at_up` (camera_utils.py:17-71). -/
def eyeAtUp (R : M3 K) (T : V3 K) : Option (V3 K × V3 K × V3 K) := do
  let eye ← unview R T ⟨0, 0, 0⟩
  let «at» ← unview R T ⟨0, 0, 1⟩
  let up ← unview R T ⟨0, 1, 0⟩
  some (eye, «at», up - eye)

/-- `rotate_on_spot` (camera_utils.py:74-147) for one camera. -/
def rotOne (R : M3 K) (T : V3 K) (Q : M3 K) : M3 K × V3 K :=
  (R * Q.transpose, mulVec (R * Q.transpose).transpose (mulVec R T))

/-- Broadcasting of two batch dimensions. -/
def bcast {α β γ : Type} (f : α → β → γ) (a : List α) (b : List β) : Option (List γ) :=
  if a.length = b.length then some (List.zipWith f a b)
  else match a, b with
    | [x], _ => some (b.map (f x))
    | _, [y] => some (a.map fun x => f x y)
    | _, _ => none

/-- `torch.bmm(R, T[:, :, None])`. -/
def bmm (R : List (M3 K)) (T : List (V3 K)) : Option (List (V3 K)) :=
  if R.length = T.length then some (List.zipWith mulVec R T) else none

/-- `rotate_on_spot` for batches: `R @ rotation` and the last product broadcast, `torch.bmm` does not. -/
def rotateOnSpot (R : List (M3 K)) (T : List (V3 K)) (Q : List (M3 K)) : Option (List (M3 K) × List (V3 K)) := do
  let newR ← bcast (fun r q => r * q.transpose) R Q
  let old ← bmm R T
  let newT ← bcast (fun r v => mulVec r.transpose v) newR old
  some (newR, newT)

/-- An attribute that may be `None` (camera_utils.py:182-204). -/
def joinOpt {α : Type} (l : List (Option (List α))) : Except Rays.Err (Option (List α)) :=
  if l.all Option.isNone then .ok none
  else if l.all Option.isSome then .ok (some (l.map (Option.getD · [])).flatten)
  else .error .value

def fovP? : Params K → Option (List (FovP K)) | .fovPersp l => some l | _ => none
def fovO? : Params K → Option (List (FovO K)) | .fovOrtho l => some l | _ => none
def persp? (b : Bool) : Params K → Option (List (Sfm K)) | .persp b' l => if b = b' then some l else none | _ => none
def ortho? (b : Bool) : Params K → Option (List (Sfm K)) | .ortho b' l => if b = b' then some l else none | _ => none

/-- Joins the parameters if all cameras have them. -/
def gather {α β : Type} (f : α → Option (List β)) (l : List α) : Except Rays.Err (List β) :=
  if l.all fun a => (f a).isSome then .ok (l.map fun a => (f a).getD []).flatten else .error .value

/-- The class and `in_ndc` are those of the first camera (lines 162-172, 191-200); different ones raise ValueError. -/
def joinParams (p : Params K) (l : List (Params K)) : Except Rays.Err (Params K) :=
  match p with
  | .fovPersp _ => (gather fovP? l).map .fovPersp
  | .fovOrtho _ => (gather fovO? l).map .fovOrtho
  | .persp b _ => (gather (persp? b) l).map (.persp b)
  | .ortho b _ => (gather (ortho? b) l).map (.ortho b)

/-- Field of view cameras have no field `image_size`. -/
def hasSize : Params K → Bool
  | .persp _ _ | .ortho _ _ => true
  | _ => false

/-- The field `image_size`. -/
def joinSizes (c0 : Cam K) (cs : List (Cam K)) : Except Rays.Err (Option (List (K × K))) :=
  if hasSize c0.params then joinOpt (cs.map (·.imageSize)) else .ok none

/-- `join_cameras_as_batch` (camera_utils.py:150-209): `cameras_list[0]` of an empty list is an IndexError.  The attribute
`degrees` and the devices are not modelled. -/
def joinCams (cs : List (Cam K)) : Except Rays.Err (Cam K) :=
  match cs with
  | [] => .error .index
  | c0 :: _ => do
    let params ← joinParams c0.params (cs.map (·.params))
    let kmat ← joinOpt (cs.map (·.kmat))
    let size ← joinSizes c0 cs
    .ok { n := (cs.map (·.n)).sum, R := (cs.map (·.R)).flatten, T := (cs.map (·.T)).flatten, kmat := kmat, params := params, imageSize := size }

end model

/-! ## Eye, at and up -/

section eye
variable {K : Type} [Field K] [DecidableEq K]

theorem view_unview {R : M3 K} {T y q : V3 K} (h : unview R T y = some q) : view R T q = y := by
  unfold unview at h
  split at h
  · cases h
  · rename_i hd
    cases h
    unfold view
    rw [← vecMul_mul]
    have e : (R.det⁻¹ • R.adj) * R = 1 := by
      have h1 : (R.det⁻¹ • R.adj) * R = R.det⁻¹ • (R.adj * R) := by
        ext <;> simp only [smul_def, mul_def] <;> ring
      rw [h1, adj_mul]
      ext <;> simp [smul_def, hd]
    rw [e, vecMul_one]
    ext <;> simp

/-- **C83.** For every invertible `R` the camera sees `eye` at the origin, `at` one unit ahead and `eye + up` one unit above. -/
theorem eyeAtUp_view {R : M3 K} {T e a u : V3 K} (h : eyeAtUp R T = some (e, a, u)) :
    view R T e = ⟨0, 0, 0⟩ ∧ view R T a = ⟨0, 0, 1⟩ ∧ view R T (e + u) = ⟨0, 1, 0⟩ := by
  unfold eyeAtUp at h
  cases h1 : unview R T ⟨0, 0, 0⟩ with
  | none => rw [h1] at h; cases h
  | some e' =>
    cases h2 : unview R T ⟨0, 0, 1⟩ with
    | none => rw [h1, h2] at h; cases h
    | some a' =>
      cases h3 : unview R T ⟨0, 1, 0⟩ with
      | none => rw [h1, h2, h3] at h; cases h
      | some u' =>
        rw [h1, h2, h3] at h
        simp only [Option.bind_eq_bind, Option.bind_some, Option.some.injEq, Prod.mk.injEq] at h
        obtain ⟨rfl, rfl, rfl⟩ := h
        refine ⟨view_unview h1, view_unview h2, ?_⟩
        have : e' + (u' - e') = u' := by ext <;> simp
        rw [this]
        exact view_unview h3

theorem eyeAtUp_isSome (R : M3 K) (T : V3 K) : (eyeAtUp R T).isSome = true ↔ R.det ≠ 0 := by
  unfold eyeAtUp unview
  by_cases h : R.det = 0 <;> simp [h]

theorem eyeAtUp_rot {R : M3 K} (h : IsRot R) (T : V3 K) :
    eyeAtUp R T = some (mulVec R (-T), mulVec R (⟨0, 0, 1⟩ - T), mulVec R ⟨0, 1, 0⟩) := by
  have h1 : R.det ≠ 0 := by rw [h.det]; exact one_ne_zero
  have e : R.det⁻¹ • R.adj = R.transpose := by rw [h.det, inv_one, one_smul', h.adj_eq]
  unfold eyeAtUp unview
  rw [e]
  simp only [if_neg h1, Option.bind_eq_bind, Option.bind_some, Option.some.injEq, Prod.mk.injEq]
  refine ⟨?_, ?_, ?_⟩ <;> ext <;> simp [vecMul, mulVec, M3.transpose] <;> ring

end eye

/-- **C83.** For every rotation `R` and every `T`: `look_at_view_transform` of the result of `camera_to_eye_at_up` gives `R` and `T` back. -/
theorem lookAt_eyeAtUp {R : M3 ℝ} (h : IsRot R) (T : V3 ℝ) :
    ∃ e a u, eyeAtUp R T = some (e, a, u) ∧ lookAtEye e a u = (R, T) := by
  refine ⟨_, _, _, eyeAtUp_rot h T, ?_⟩
  obtain ⟨r00, r11, r22, r01, r02, r12, c00, c11, c22, c01, c02, c12, a00, a01, a02, a10, a11, a12, a20, a21, a22⟩ := h.eqs
  have hz : axisZ (mulVec R (-T)) (mulVec R (⟨0, 0, 1⟩ - T)) = ⟨R.m02, R.m12, R.m22⟩ := by
    unfold axisZ
    have e : mulVec R (⟨0, 0, 1⟩ - T) - mulVec R (-T) = ⟨R.m02, R.m12, R.m22⟩ := by
      ext <;> simp [mulVec] <;> ring
    rw [e]
    exact normalize5_unit (norm_one_iff.mpr (by simp only [V3.normSq, V3.dot]; exact c22))
  have hx : axisX0 (mulVec R (-T)) (mulVec R (⟨0, 0, 1⟩ - T)) (mulVec R ⟨0, 1, 0⟩) = ⟨R.m00, R.m10, R.m20⟩ := by
    unfold axisX0
    rw [hz]
    have e : V3.cross (mulVec R ⟨0, 1, 0⟩) (⟨R.m02, R.m12, R.m22⟩ : V3 ℝ) = ⟨R.m00, R.m10, R.m20⟩ := by
      ext <;> simp only [V3.cross, mulVec] <;> linarith
    rw [e]
    exact normalize5_unit (norm_one_iff.mpr (by simp only [V3.normSq, V3.dot]; exact c00))
  have hy : axisY (mulVec R (-T)) (mulVec R (⟨0, 0, 1⟩ - T)) (mulVec R ⟨0, 1, 0⟩) = ⟨R.m01, R.m11, R.m21⟩ := by
    unfold axisY
    rw [hz, hx]
    have e : V3.cross (⟨R.m02, R.m12, R.m22⟩ : V3 ℝ) ⟨R.m00, R.m10, R.m20⟩ = ⟨R.m01, R.m11, R.m21⟩ := by
      ext <;> simp only [V3.cross] <;> linarith
    rw [e]
    exact normalize5_unit (norm_one_iff.mpr (by simp only [V3.normSq, V3.dot]; exact c11))
  have hX : axisX (mulVec R (-T)) (mulVec R (⟨0, 0, 1⟩ - T)) (mulVec R ⟨0, 1, 0⟩) = ⟨R.m00, R.m10, R.m20⟩ := by
    unfold axisX
    rw [if_neg, hx]
    intro hc
    refine closeToZero_norm hc ?_
    rw [hx]
    exact norm_one_iff.mpr (by simp only [V3.normSq, V3.dot]; exact c00)
  have hR : lookAtRotation (mulVec R (-T)) (mulVec R (⟨0, 0, 1⟩ - T)) (mulVec R ⟨0, 1, 0⟩) = R := by
    unfold lookAtRotation
    rw [hX, hy, hz]
    rfl
  unfold lookAtEye
  dsimp only
  rw [hR, ← mulVec_mul, h.orth', mulVec_one]
  simp only [Prod.mk.injEq, true_and]
  ext <;> simp

/-- **C83.** Conversely, from a camera placed by `look_at_view_transform` one gets the same eye, the point one unit ahead instead of
the target, and the up vector made perpendicular. -/
theorem eyeAtUp_lookAt {e a u : V3 ℝ} (h : IsRot (lookAtEye e a u).1) :
    eyeAtUp (lookAtEye e a u).1 (lookAtEye e a u).2 = some (e, e + axisZ e a, axisY e a u) := by
  rw [eyeAtUp_rot h]
  have hT : (lookAtEye e a u).2 = -mulVec (lookAtEye e a u).1.transpose e := rfl
  have hn : mulVec (lookAtEye e a u).1 (-(lookAtEye e a u).2) = e := by
    rw [hT]
    have : -(-mulVec (lookAtEye e a u).1.transpose e) = mulVec (lookAtEye e a u).1.transpose e := by ext <;> simp
    rw [this, ← mulVec_mul, h.orth, mulVec_one]
  have hR : (lookAtEye e a u).1 = (M3.ofRows (axisX e a u) (axisY e a u) (axisZ e a)).transpose := rfl
  have hs : mulVec (lookAtEye e a u).1 (⟨0, 0, 1⟩ - (lookAtEye e a u).2) = e + axisZ e a := by
    have e1 : mulVec (lookAtEye e a u).1 (⟨0, 0, 1⟩ - (lookAtEye e a u).2)
        = mulVec (lookAtEye e a u).1 (-(lookAtEye e a u).2) + mulVec (lookAtEye e a u).1 ⟨0, 0, 1⟩ := by
      ext <;> simp [mulVec] <;> ring
    rw [e1, hn, hR]
    ext <;> simp [mulVec, M3.ofRows, M3.transpose]
  have hu : mulVec (lookAtEye e a u).1 ⟨0, 1, 0⟩ = axisY e a u := by
    rw [hR]
    ext <;> simp [mulVec, M3.ofRows, M3.transpose]
  rw [hn, hs, hu]

/-- **C83.** For matrices that are not rotations this fails: no eye, at and up give back a matrix with other than unit determinant.
The documentation speaks of any camera. -/
theorem lookAt_no_scale {R : M3 ℝ} (hR : R.det ≠ 1) (T : V3 ℝ) (e a u : V3 ℝ) (hr : IsRot (lookAtEye e a u).1) : lookAtEye e a u ≠ (R, T) := by
  intro h
  rw [h] at hr
  exact hR hr.det

/-! ## Rotation on the spot -/

section spot
variable {K : Type} [Field K] [DecidableEq K]

/-- **C83.** The new camera sees every point where the old one sees it, turned by the inverse rotation; it is in the same place. -/
theorem rotOne_view {R : M3 K} (hR : IsRot R) (T : V3 K) (Q : M3 K) (q : V3 K) :
    view (rotOne R T Q).1 (rotOne R T Q).2 q = vecMul (view R T q) Q.transpose := by
  unfold view rotOne
  have e : mulVec (R * Q.transpose).transpose (mulVec R T) = vecMul T Q.transpose := by
    rw [mulVec_transpose, vecMul_mul]
    have : vecMul (mulVec R T) R = T := by rw [← mulVec_transpose, ← mulVec_mul, hR.orth', mulVec_one]
    rw [this]
  rw [e, vecMul_mul]
  ext <;> simp [vecMul] <;> ring

theorem rotOne_center {R : M3 K} (hR : IsRot R) (T : V3 K) {Q : M3 K} (hQ : IsRot Q) (q : V3 K) :
    IsRot (rotOne R T Q).1 ∧ (view (rotOne R T Q).1 (rotOne R T Q).2 q = 0 ↔ view R T q = 0) := by
  refine ⟨hR.mul hQ.transpose, ?_⟩
  rw [rotOne_view hR]
  constructor
  · intro h
    have := congrArg (fun v => vecMul v Q) h
    simp only [← vecMul_mul, hQ.orth', vecMul_one] at this
    rw [this]
    ext <;> simp [vecMul]
  · intro h
    rw [h]
    ext <;> simp [vecMul]

/-- **C83.** Two turns are one by the product. -/
theorem rotOne_rotOne {R : M3 K} (hR : IsRot R) (T : V3 K) {Q : M3 K} (hQ : IsRot Q) (P : M3 K) :
    rotOne (rotOne R T Q).1 (rotOne R T Q).2 P = rotOne R T (P * Q) := by
  have hT : ∀ {R : M3 K}, IsRot R → ∀ (T : V3 K) (Q : M3 K), (rotOne R T Q).2 = vecMul T Q.transpose := by
    intro R hR T Q
    unfold rotOne
    dsimp only
    rw [mulVec_transpose, vecMul_mul]
    have : vecMul (mulVec R T) R = T := by rw [← mulVec_transpose, ← mulVec_mul, hR.orth', mulVec_one]
    rw [this]
  have h1 : IsRot (rotOne R T Q).1 := hR.mul hQ.transpose
  refine Prod.ext ?_ ?_
  · show R * Q.transpose * P.transpose = R * (P * Q).transpose
    rw [transpose_mul, mul_assoc']
  · rw [hT h1, hT hR, hT hR, transpose_mul, vecMul_mul]

/-- **C83.** Moving the camera by `X` in its own coordinates: `T - X` in place of `T`. -/
theorem translate_camera {R : M3 K} (T X q q' : V3 K) (h : view R T q = 0) (h' : view R (T - X) q' = 0) : view R T q' = X ∧ view R T (q' - q) = X + T := by
  unfold view at *
  have e : vecMul q' R + T = X := by
    have := congrArg (· + X) h'
    have e1 : vecMul q' R + (T - X) + X = vecMul q' R + T := by ext <;> simp <;> ring
    rw [← e1]
    refine this.trans ?_
    ext <;> simp
  refine ⟨e, ?_⟩
  have : vecMul (q' - q) R = (vecMul q' R + T) - (vecMul q R + T) := by ext <;> simp [vecMul] <;> ring
  rw [this, e, h]
  ext <;> simp

end spot

/-- Rotations about the axes by the angle with cosine `c` and sine `s`, as `axis_angle_to_matrix` gives them (C01). -/
def rotX (c s : ℝ) : M3 ℝ := ⟨1, 0, 0, 0, c, -s, 0, s, c⟩
def rotY (c s : ℝ) : M3 ℝ := ⟨c, 0, s, 0, 1, 0, -s, 0, c⟩
def rotZ (c s : ℝ) : M3 ℝ := ⟨c, -s, 0, s, c, 0, 0, 0, 1⟩

/-- **C83.** The senses of the documentation, with x pointing left and y up in view coordinates: what the turned camera sees straight
ahead was seen by the old one to the right for a turn about y, above for one about x; and what it sees straight above was to the
left for one about z. -/
theorem rotOne_sense {R : M3 ℝ} (hR : IsRot R) (T q : V3 ℝ) (c s : ℝ) (h : c ^ 2 + s ^ 2 = 1) :
    (view (rotOne R T (rotY c s)).1 (rotOne R T (rotY c s)).2 q = ⟨0, 0, 1⟩ → view R T q = ⟨-s, 0, c⟩)
      ∧ (view (rotOne R T (rotX c s)).1 (rotOne R T (rotX c s)).2 q = ⟨0, 0, 1⟩ → view R T q = ⟨0, s, c⟩)
      ∧ (view (rotOne R T (rotZ c s)).1 (rotOne R T (rotZ c s)).2 q = ⟨0, 1, 0⟩ → view R T q = ⟨s, c, 0⟩) := by
  simp only [rotOne_view hR]
  generalize view R T q = v
  obtain ⟨x, y, z⟩ := v
  simp only [vecMul, M3.transpose, rotX, rotY, rotZ, V3.mk.injEq]
  refine ⟨?_, ?_, ?_⟩ <;> rintro ⟨h1, h2, h3⟩ <;> refine ⟨?_, ?_, ?_⟩ <;> grind

section batch
variable {K : Type} [Field K] [DecidableEq K]

/-- **C83.** A batch is turned row by row, by as many rotations or by one. -/
theorem rotateOnSpot_zip (R : List (M3 K)) (T : List (V3 K)) (Q : List (M3 K)) (h1 : R.length = T.length) (h2 : R.length = Q.length) :
    ∃ (r : List (M3 K)) (t : List (V3 K)), rotateOnSpot R T Q = some (r, t) ∧ r.length = R.length ∧ t.length = R.length
      ∧ ∀ (i : Nat) (a : M3 K) (b : V3 K) (q : M3 K), R[i]? = some a → T[i]? = some b → Q[i]? = some q → (r[i]? = some (rotOne a b q).1 ∧ t[i]? = some (rotOne a b q).2) := by
  unfold rotateOnSpot bcast bmm
  rw [if_pos h2, if_pos h1]
  simp only [Option.bind_eq_bind, Option.bind_some]
  have hl : (List.zipWith (fun r (q : M3 K) => r * q.transpose) R Q).length = (List.zipWith mulVec R T).length := by
    simp only [List.length_zipWith]; omega
  rw [if_pos hl]
  refine ⟨_, _, rfl, ?_, ?_, ?_⟩
  · simp only [List.length_zipWith]; omega
  · simp only [List.length_zipWith]; omega
  · intro i a b q ha hb hq
    simp only [List.getElem?_zipWith, ha, hb, hq]
    exact ⟨rfl, rfl⟩

theorem rotateOnSpot_one (R : List (M3 K)) (T : List (V3 K)) (Q : M3 K) (h1 : R.length = T.length) (h2 : R.length ≠ 1) (h0 : R ≠ []) :
    rotateOnSpot R T [Q] = some ((List.zipWith (fun a b => rotOne a b Q) R T).map Prod.fst, (List.zipWith (fun a b => rotOne a b Q) R T).map Prod.snd) := by
  match R, T, h1 with
  | [a], _, _ => exact absurd rfl h2
  | [], _, _ => exact absurd rfl h0
  | a :: b :: R, c :: d :: T, h1 =>
    have hne : ¬ (a :: b :: R).length = [Q].length := by simp
    unfold rotateOnSpot bcast bmm
    rw [if_neg hne, if_pos h1]
    simp only [Option.bind_eq_bind, Option.bind_some]
    have hl : ((a :: b :: R).map fun x => x * Q.transpose).length = (List.zipWith mulVec (a :: b :: R) (c :: d :: T)).length := by
      simp only [List.length_zipWith, List.length_map]; omega
    rw [if_pos hl, Option.bind_some]
    refine congrArg some (Prod.ext ?_ ?_) <;> dsimp only
    · rw [List.map_zipWith]
      apply List.ext_getElem?
      intro i
      simp only [List.getElem?_map, List.getElem?_zipWith]
      by_cases hi : i < (a :: b :: R).length
      · rw [List.getElem?_eq_getElem hi, List.getElem?_eq_getElem (h1 ▸ hi)]
        rfl
      · rw [List.getElem?_eq_none (not_lt.mp hi), List.getElem?_eq_none (h1 ▸ not_lt.mp hi)]
        rfl
    · rw [List.map_zipWith]
      apply List.ext_getElem?
      intro i
      simp only [List.getElem?_map, List.getElem?_zipWith]
      by_cases hi : i < (a :: b :: R).length
      · rw [List.getElem?_eq_getElem hi, List.getElem?_eq_getElem (h1 ▸ hi)]
        rfl
      · rw [List.getElem?_eq_none (not_lt.mp hi), List.getElem?_eq_none (h1 ▸ not_lt.mp hi)]
        rfl

end batch

/-! ## Joining cameras -/

section join
variable {K : Type} [Field K] [DecidableEq K]

/-- Class and `in_ndc`. -/
def kind : Params K → Nat × Bool
  | .fovPersp _ => (0, true)
  | .fovOrtho _ => (1, true)
  | .persp b _ => (2, b)
  | .ortho b _ => (3, b)

/-- Number of rows of the parameters. -/
def rowsOf : Params K → Nat
  | .fovPersp l => l.length
  | .fovOrtho l => l.length
  | .persp _ l => l.length
  | .ortho _ l => l.length

/-- A constructed camera object: all attributes have `n` rows. -/
structure Full (c : Cam K) : Prop where
  R : c.R.length = c.n
  T : c.T.length = c.n
  params : rowsOf c.params = c.n
  kmat : ∀ l, c.kmat = some l → l.length = c.n
  size : ∀ l, c.imageSize = some l → l.length = c.n
  noSize : hasSize c.params = false → c.imageSize = none

/-- All present or all absent. -/
def Uniform {α : Type} (l : List (Option α)) : Prop := (∀ x ∈ l, x = none) ∨ ∀ x ∈ l, x ≠ none

theorem joinOpt_ok {α : Type} (l : List (Option (List α))) : (∃ r, joinOpt l = .ok r) ↔ Uniform l := by
  unfold joinOpt Uniform
  by_cases h1 : l.all Option.isNone = true
  · rw [if_pos h1]
    refine ⟨fun _ => .inl fun x hx => ?_, fun _ => ⟨_, rfl⟩⟩
    simpa using List.all_eq_true.mp h1 x hx
  · rw [if_neg h1]
    by_cases h2 : l.all Option.isSome = true
    · rw [if_pos h2]
      refine ⟨fun _ => .inr fun x hx => ?_, fun _ => ⟨_, rfl⟩⟩
      have := List.all_eq_true.mp h2 x hx
      exact Option.isSome_iff_ne_none.mp this
    · rw [if_neg h2]
      constructor
      · rintro ⟨r, h⟩; cases h
      · rintro (h | h)
        · exact absurd (List.all_eq_true.mpr fun x hx => by rw [h x hx]; rfl) h1
        · exact absurd (List.all_eq_true.mpr fun x hx => Option.isSome_iff_ne_none.mpr (h x hx)) h2

theorem gather_ok {α β : Type} (f : α → Option (List β)) (l : List α) : (∃ r, gather f l = .ok r) ↔ ∀ a ∈ l, f a ≠ none := by
  unfold gather
  split
  · rename_i h
    exact ⟨fun _ a ha => Option.isSome_iff_ne_none.mp (List.all_eq_true.mp h a ha), fun _ => ⟨_, rfl⟩⟩
  · rename_i h
    constructor
    · rintro ⟨r, h⟩; cases h
    · intro h'
      exact absurd (List.all_eq_true.mpr fun a ha => Option.isSome_iff_ne_none.mpr (h' a ha)) h

theorem map_ok {α β : Type} (f : α → β) (x : Except Rays.Err α) : (∃ r, x.map f = .ok r) ↔ ∃ r, x = .ok r := by
  cases x with
  | error e => simp [Except.map]
  | ok a => simp [Except.map]

theorem joinParams_ok (p : Params K) (l : List (Params K)) : (∃ r, joinParams p l = .ok r) ↔ ∀ q ∈ l, kind q = kind p := by
  cases p with
  | fovPersp _ =>
    simp only [joinParams, map_ok, gather_ok]
    refine forall_congr' fun q => forall_congr' fun _ => ?_
    cases q <;> simp [fovP?, kind]
  | fovOrtho _ =>
    simp only [joinParams, map_ok, gather_ok]
    refine forall_congr' fun q => forall_congr' fun _ => ?_
    cases q <;> simp [fovO?, kind]
  | persp b _ =>
    simp only [joinParams, map_ok, gather_ok]
    refine forall_congr' fun q => forall_congr' fun _ => ?_
    cases q <;> simp [persp?, kind, eq_comm]
  | ortho b _ =>
    simp only [joinParams, map_ok, gather_ok]
    refine forall_congr' fun q => forall_congr' fun _ => ?_
    cases q <;> simp [ortho?, kind, eq_comm]

theorem bind_ok {α β : Type} (x : Except Rays.Err α) (f : α → Except Rays.Err β) : (∃ r, x.bind f = .ok r) ↔ ∃ a, x = .ok a ∧ ∃ r, f a = .ok r := by
  cases x with
  | error e => simp [Except.bind]
  | ok a => simp [Except.bind]

theorem joinCams_cons (c0 : Cam K) (cs : List (Cam K)) : joinCams (c0 :: cs) =
    (joinParams c0.params ((c0 :: cs).map (·.params))).bind fun params =>
    (joinOpt ((c0 :: cs).map (·.kmat))).bind fun kmat =>
    (joinSizes c0 (c0 :: cs)).bind fun size =>
    .ok { n := ((c0 :: cs).map (·.n)).sum, R := ((c0 :: cs).map (·.R)).flatten, T := ((c0 :: cs).map (·.T)).flatten, kmat := kmat, params := params, imageSize := size } := rfl

/-- **C83.** Camera objects can be joined exactly if there is at least one, all are of the same class and either all or none are in NDC, have a
calibration matrix and have an image size. -/
theorem joinCams_ok (cs : List (Cam K)) (hf : ∀ c ∈ cs, Full c) :
    (∃ r, joinCams cs = .ok r) ↔ cs ≠ [] ∧ (∀ c ∈ cs, ∀ d ∈ cs, kind c.params = kind d.params) ∧ Uniform (cs.map (·.kmat)) ∧ Uniform (cs.map (·.imageSize)) := by
  cases cs with
  | nil => simp [joinCams]
  | cons c0 cs =>
    rw [joinCams_cons, bind_ok]
    have hk : (∃ a, joinParams c0.params ((c0 :: cs).map (·.params)) = .ok a) ↔ ∀ c ∈ c0 :: cs, ∀ d ∈ c0 :: cs, kind c.params = kind d.params := by
      rw [joinParams_ok]
      constructor
      · intro h c hc d hd
        rw [h _ (List.mem_map_of_mem hc), h _ (List.mem_map_of_mem hd)]
      · intro h q hq
        obtain ⟨c, hc, rfl⟩ := List.mem_map.mp hq
        exact h c hc c0 List.mem_cons_self
    have hsz : (∀ c ∈ c0 :: cs, ∀ d ∈ c0 :: cs, kind c.params = kind d.params) →
        ((∃ a, joinSizes c0 (c0 :: cs) = .ok a)
          ↔ Uniform ((c0 :: cs).map (·.imageSize))) := by
      intro h
      unfold joinSizes
      split
      · exact joinOpt_ok _
      · rename_i h0
        refine ⟨fun _ => .inl fun x hx => ?_, fun _ => ⟨_, rfl⟩⟩
        obtain ⟨c, hc, rfl⟩ := List.mem_map.mp hx
        refine (hf c hc).noSize ?_
        have := h c hc c0 List.mem_cons_self
        revert h0 this
        cases c.params <;> cases c0.params <;> simp [hasSize, kind]
    constructor
    · rintro ⟨a, ha, r, hr⟩
      have h1 := hk.mp ⟨a, ha⟩
      obtain ⟨k, hk1, hr⟩ := (bind_ok _ _).mp ⟨r, hr⟩
      obtain ⟨z, hz, -⟩ := (bind_ok _ _).mp hr
      exact ⟨List.cons_ne_nil _ _, h1, (joinOpt_ok _).mp ⟨k, hk1⟩, (hsz h1).mp ⟨z, hz⟩⟩
    · rintro ⟨-, h1, h2, h3⟩
      obtain ⟨a, ha⟩ := hk.mpr h1
      obtain ⟨k, hk⟩ := (joinOpt_ok _).mpr h2
      obtain ⟨z, hz⟩ := (hsz h1).mpr h3
      exact ⟨a, ha, (bind_ok _ _).mpr ⟨k, hk, (bind_ok _ _).mpr ⟨z, hz, _, rfl⟩⟩⟩

/-- Position of the first row of object `j`. -/
def offset (cs : List (Cam K)) (j : Nat) : Nat := ((cs.take j).map (·.n)).sum

theorem piece {β : Type} (g : Cam K → List β) : ∀ (cs : List (Cam K)), (∀ c ∈ cs, (g c).length = c.n) → ∀ (j : Nat) (d : Cam K), cs[j]? = some d → ∀ i, i < d.n →
    ((cs.map g).flatten)[offset cs j + i]? = (g d)[i]? := by
  intro cs
  induction cs with
  | nil => intro _ j d h; simp at h
  | cons c cs ih =>
    intro hl j d hj i hi
    have hc := hl c List.mem_cons_self
    cases j with
    | zero =>
      simp only [List.getElem?_cons_zero, Option.some.injEq] at hj
      subst hj
      simp only [offset, List.take_zero, List.map_nil, List.sum_nil, Nat.zero_add, List.map_cons, List.flatten_cons]
      rw [List.getElem?_append_left (by omega)]
    | succ j =>
      simp only [List.getElem?_cons_succ] at hj
      have := ih (fun c h => hl c (List.mem_cons_of_mem _ h)) j d hj i hi
      simp only [offset, List.take_succ_cons, List.map_cons, List.sum_cons, List.flatten_cons] at this ⊢
      rw [List.getElem?_append_right (by omega), ← this]
      congr 1
      omega

theorem offset_lt : ∀ (cs : List (Cam K)) (j : Nat) (d : Cam K), cs[j]? = some d → ∀ i, i < d.n → offset cs j + i < (cs.map (·.n)).sum := by
  intro cs
  induction cs with
  | nil => intro j d h; simp at h
  | cons c cs ih =>
    intro j d hj i hi
    cases j with
    | zero =>
      simp only [List.getElem?_cons_zero, Option.some.injEq] at hj
      subst hj
      simp only [offset, List.take_zero, List.map_nil, List.sum_nil, List.map_cons, List.sum_cons]
      omega
    | succ j =>
      simp only [List.getElem?_cons_succ] at hj
      have := ih j d hj i hi
      simp only [offset, List.take_succ_cons, List.map_cons, List.sum_cons] at this ⊢
      omega

theorem rows_one {β : Type} (k : Nat) (l : List β) : rows [k] l = l[k]?.toList := by
  unfold rows
  cases h : l[k]? <;> simp [h]

theorem piece_rows {β : Type} (g : Cam K → List β) (cs : List (Cam K)) (hl : ∀ c ∈ cs, (g c).length = c.n) {j : Nat} {d : Cam K} (hj : cs[j]? = some d) {i : Nat}
    (hi : i < d.n) : rows [offset cs j + i] (cs.map g).flatten = rows [i] (g d) := by
  rw [rows_one, rows_one, piece g cs hl j d hj i hi]

theorem joinOpt_rows {β : Type} (g : Cam K → Option (List β)) (cs : List (Cam K)) (hl : ∀ c ∈ cs, ∀ l, g c = some l → l.length = c.n) {r : Option (List β)}
    (h : joinOpt (cs.map g) = .ok r) {j : Nat} {d : Cam K} (hj : cs[j]? = some d) {i : Nat} (hi : i < d.n) :
    r.map (rows [offset cs j + i]) = (g d).map (rows [i]) := by
  have hd : d ∈ cs := List.mem_of_getElem? hj
  unfold joinOpt at h
  split at h
  · rename_i h1
    cases h
    have : g d = none := by simpa using List.all_eq_true.mp h1 _ (List.mem_map_of_mem hd)
    rw [this]
    rfl
  · split at h
    · rename_i h2
      cases h
      have hs : ∀ c ∈ cs, ∃ l, g c = some l := fun c hc => Option.isSome_iff_exists.mp (List.all_eq_true.mp h2 _ (List.mem_map_of_mem hc))
      obtain ⟨l, hld⟩ := hs d hd
      rw [hld, List.map_map]
      simp only [Option.map_some]
      have := piece_rows (fun c => (g c).getD []) cs (fun c hc => by
        obtain ⟨l, h⟩ := hs c hc
        rw [h]
        exact hl c hc l h) hj hi
      simp only [hld, Option.getD_some] at this
      exact congrArg some this
    · cases h

theorem gather_rows {β : Type} (f : Params K → Option (List β)) (cs : List (Cam K)) (hl : ∀ c ∈ cs, ∀ l, f c.params = some l → l.length = c.n) {r : List β}
    (h : gather f (cs.map (·.params)) = .ok r) {j : Nat} {d : Cam K} (hj : cs[j]? = some d) {i : Nat} (hi : i < d.n) :
    ∃ l, f d.params = some l ∧ rows [offset cs j + i] r = rows [i] l := by
  have hd : d ∈ cs := List.mem_of_getElem? hj
  unfold gather at h
  split at h
  · rename_i h2
    cases h
    have hs : ∀ c ∈ cs, ∃ l, f c.params = some l := fun c hc =>
      Option.isSome_iff_exists.mp (List.all_eq_true.mp h2 _ (List.mem_map_of_mem hc))
    obtain ⟨l, hld⟩ := hs d hd
    refine ⟨l, hld, ?_⟩
    have := piece_rows (fun c => (f c.params).getD []) cs (fun c hc => by
      obtain ⟨l, h⟩ := hs c hc
      rw [h]
      exact hl c hc l h) hj hi
    simp only [hld, Option.getD_some] at this
    rw [List.map_map]
    exact this
  · cases h

theorem except_map_ok {α β : Type} {f : α → β} {x : Except Rays.Err α} {r : β} (h : x.map f = .ok r) : ∃ a, x = .ok a ∧ r = f a := by
  cases x with
  | error e => cases h
  | ok a => cases h; exact ⟨a, rfl, rfl⟩

theorem joinParams_rows (p : Params K) (cs : List (Cam K)) (hl : ∀ c ∈ cs, rowsOf c.params = c.n) {r : Params K}
    (h : joinParams p (cs.map (·.params)) = .ok r) {j : Nat} {d : Cam K} (hj : cs[j]? = some d) {i : Nat} (hi : i < d.n) :
    indexParams [offset cs j + i] r = indexParams [i] d.params := by
  cases p with
  | fovPersp _ =>
    obtain ⟨a, h1, rfl⟩ := except_map_ok h
    obtain ⟨l, h2, h3⟩ := gather_rows fovP? cs (fun c hc l h => by
      have := hl c hc
      revert h this; cases c.params <;> simp [fovP?, rowsOf]; rintro rfl h; exact h) h1 hj hi
    revert h2; cases d.params <;> simp [fovP?]; rintro rfl
    simp only [indexParams, h3]
  | fovOrtho _ =>
    obtain ⟨a, h1, rfl⟩ := except_map_ok h
    obtain ⟨l, h2, h3⟩ := gather_rows fovO? cs (fun c hc l h => by
      have := hl c hc
      revert h this; cases c.params <;> simp [fovO?, rowsOf]; rintro rfl h; exact h) h1 hj hi
    revert h2; cases d.params <;> simp [fovO?]; rintro rfl
    simp only [indexParams, h3]
  | persp b _ =>
    obtain ⟨a, h1, rfl⟩ := except_map_ok h
    obtain ⟨l, h2, h3⟩ := gather_rows (persp? b) cs (fun c hc l h => by
      have := hl c hc
      revert h this; cases c.params <;> simp [persp?, rowsOf]; rintro - rfl h; exact h) h1 hj hi
    revert h2; cases d.params <;> simp [persp?]; rintro rfl rfl
    simp only [indexParams, h3]
  | ortho b _ =>
    obtain ⟨a, h1, rfl⟩ := except_map_ok h
    obtain ⟨l, h2, h3⟩ := gather_rows (ortho? b) cs (fun c hc l h => by
      have := hl c hc
      revert h this; cases c.params <;> simp [ortho?, rowsOf]; rintro - rfl h; exact h) h1 hj hi
    revert h2; cases d.params <;> simp [ortho?]; rintro rfl rfl
    simp only [indexParams, h3]

theorem except_bind_ok {α β : Type} {f : α → Except Rays.Err β} {x : Except Rays.Err α} {r : β} (h : x.bind f = .ok r) : ∃ a, x = .ok a ∧ f a = .ok r := by
  cases x with
  | error e => cases h
  | ok a => exact ⟨a, rfl, h⟩

/-- **C83.** Camera `i` of object `j` is camera `offset j + i` of the joined object. -/
theorem joinCams_index {cs : List (Cam K)} (hf : ∀ c ∈ cs, Full c) {r : Cam K} (h : joinCams cs = .ok r) {j : Nat} {d : Cam K} (hj : cs[j]? = some d) {i : Nat}
    (hi : i < d.n) : r.n = (cs.map (·.n)).sum ∧ indexCam [offset cs j + i] r = indexCam [i] d := by
  cases cs with
  | nil => cases h
  | cons c0 cs =>
    rw [joinCams_cons] at h
    obtain ⟨p, hp, h⟩ := except_bind_ok h
    obtain ⟨k, hk, h⟩ := except_bind_ok h
    obtain ⟨z, hz, h⟩ := except_bind_ok h
    cases h
    refine ⟨rfl, ?_⟩
    have hlt := offset_lt _ j d hj i hi
    have hd : d ∈ c0 :: cs := List.mem_of_getElem? hj
    unfold indexCam
    rw [if_neg (List.cons_ne_nil _ _), if_neg (List.cons_ne_nil _ _), if_neg (by simpa using hlt), if_neg (by simpa using hi)]
    have e1 := piece_rows (·.R) (c0 :: cs) (fun c hc => (hf c hc).R) hj hi
    have e2 := piece_rows (·.T) (c0 :: cs) (fun c hc => (hf c hc).T) hj hi
    have e3 := joinOpt_rows (·.kmat) (c0 :: cs) (fun c hc => (hf c hc).kmat) hk hj hi
    have e4 := joinParams_rows c0.params (c0 :: cs) (fun c hc => (hf c hc).params) hp hj hi
    have e5 : z.map (rows [offset (c0 :: cs) j + i]) = d.imageSize.map (rows [i]) := by
      unfold joinSizes at hz
      split at hz
      · exact joinOpt_rows (·.imageSize) (c0 :: cs) (fun c hc => (hf c hc).size) hz hj hi
      · rename_i h0
        cases hz
        have := (joinParams_ok c0.params ((c0 :: cs).map (·.params))).mp ⟨p, hp⟩ d.params (List.mem_map_of_mem hd)
        rw [(hf d hd).noSize]
        · rfl
        · revert h0 this
          cases d.params <;> cases c0.params <;> simp [hasSize, kind]
    rw [e1, e2, e3, e4, e5]
    rfl

/-- The cameras of an object, one by one. -/
def single (c : Cam K) (i : Nat) : Cam K :=
  { n := 1, R := rows [i] c.R, T := rows [i] c.T, kmat := c.kmat.map (rows [i]), params := indexParams [i] c.params, imageSize := c.imageSize.map (rows [i]) }

theorem flatten_rows {β : Type} (l : List β) (n : Nat) (h : l.length = n) : ((List.range n).map fun i => rows [i] l).flatten = l := by
  subst h
  induction l with
  | nil => rfl
  | cons a l ih =>
    rw [List.length_cons, List.range_succ_eq_map, List.map_cons, List.flatten_cons, List.map_map]
    have : ((fun i => rows [i] (a :: l)) ∘ Nat.succ) = fun i => rows [i] l := by
      funext i
      simp [rows_one]
    rw [this, ih, rows_one]
    rfl

theorem joinOpt_single {β : Type} (o : Option (List β)) (n : Nat) (hn : 0 < n) (h : ∀ l, o = some l → l.length = n) :
    joinOpt ((List.range n).map fun i => o.map (rows [i])) = .ok o := by
  unfold joinOpt
  cases o with
  | none => rw [if_pos]; simp
  | some l =>
    rw [if_neg, if_pos]
    · rw [List.map_map]
      exact congrArg (fun x => Except.ok (some x)) (flatten_rows l n (h l rfl))
    · simp
    · simp only [Option.map_some, List.all_map, List.all_eq_true, List.mem_range, Function.comp_apply, Option.isNone_some]
      intro h
      exact absurd (h 0 hn) (by simp)

theorem gather_single {β : Type} (f : Params K → Option (List β)) (p : Params K) (l : List β) (n : Nat) (h : l.length = n)
    (hf : ∀ i, f (indexParams [i] p) = some (rows [i] l)) : gather f ((List.range n).map fun i => indexParams [i] p) = .ok l := by
  unfold gather
  rw [if_pos, List.map_map]
  · have : ((fun a => (f a).getD []) ∘ fun i => indexParams [i] p) = fun i => rows [i] l := by
      funext i
      simp [hf]
    rw [this, flatten_rows l n h]
  · simp [hf]

/-- **C83.** Taking an object apart and joining the cameras gives the object back. -/
theorem joinCams_single {c : Cam K} (hf : Full c) (hn : 0 < c.n) :
    (∀ i, i < c.n → indexCam [i] c = .ok (single c i)) ∧ joinCams ((List.range c.n).map (single c)) = .ok c := by
  constructor
  · intro i hi
    unfold indexCam
    rw [if_neg (List.cons_ne_nil _ _), if_neg (by simpa using hi)]
    rfl
  · have hcons : (List.range c.n).map (single c) = single c 0 :: ((List.range (c.n - 1)).map Nat.succ).map (single c) := by
      obtain ⟨m, hm⟩ : ∃ m, c.n = m + 1 := ⟨c.n - 1, by omega⟩
      rw [hm, List.range_succ_eq_map]
      rfl
    have hp : joinParams (single c 0).params (((List.range c.n).map (single c)).map (·.params)) = .ok c.params := by
      rw [List.map_map]
      have e : ((fun x : Cam K => x.params) ∘ single c) = fun i => indexParams [i] c.params := rfl
      rw [e]
      have hl := hf.params
      show joinParams (indexParams [0] c.params) _ = _
      revert hl
      cases c.params with
      | fovPersp l => intro hl; exact congrArg (Except.map _) (gather_single fovP? (.fovPersp l) l _ hl fun i => rfl)
      | fovOrtho l => intro hl; exact congrArg (Except.map _) (gather_single fovO? (.fovOrtho l) l _ hl fun i => rfl)
      | persp b l => intro hl; exact congrArg (Except.map _) (gather_single (persp? b) (.persp b l) l _ hl fun i => by simp [persp?, indexParams])
      | ortho b l => intro hl; exact congrArg (Except.map _) (gather_single (ortho? b) (.ortho b l) l _ hl fun i => by simp [ortho?, indexParams])
    have hk : joinOpt (((List.range c.n).map (single c)).map (·.kmat)) = .ok c.kmat := by
      rw [List.map_map]
      exact joinOpt_single c.kmat c.n hn hf.kmat
    have hz : joinSizes (single c 0) ((List.range c.n).map (single c)) = .ok c.imageSize := by
      unfold joinSizes
      split
      · rw [List.map_map]
        exact joinOpt_single c.imageSize c.n hn hf.size
      · rename_i h0
        rw [hf.noSize]
        revert h0
        show ¬ (hasSize (indexParams [0] c.params) = true) → _
        cases c.params <;> simp [indexParams, hasSize]
    have hR : (((List.range c.n).map (single c)).map (·.R)).flatten = c.R := by rw [List.map_map]; exact flatten_rows c.R c.n hf.R
    have hT : (((List.range c.n).map (single c)).map (·.T)).flatten = c.T := by rw [List.map_map]; exact flatten_rows c.T c.n hf.T
    have hN : (((List.range c.n).map (single c)).map (·.n)).sum = c.n := by
      rw [List.map_map]
      have : ((fun x : Cam K => x.n) ∘ single c) = fun _ => 1 := rfl
      rw [this]
      simp
    rw [hcons, joinCams_cons, ← hcons, hp]
    simp only [Except.bind]
    rw [hk]
    simp only
    rw [hz]
    simp only
    rw [hR, hT, hN]

end join

/-! ## Examples -/

-- a camera turned by 90 degrees about y
example : eyeAtUp (⟨0, 0, 1, 0, 1, 0, -1, 0, 0⟩ : M3 ℚ) ⟨1, 2, 3⟩ = some (⟨-3, -2, 1⟩, ⟨-2, -2, 1⟩, ⟨0, 1, 0⟩) := by decide +kernel

-- a singular matrix
example : eyeAtUp (⟨0, 0, 1, 0, 1, 0, 0, 0, 1⟩ : M3 ℚ) ⟨1, 2, 3⟩ = none := by decide +kernel

-- two cameras and one rotation; two cameras and three rotations
example : rotateOnSpot ([1, 1] : List (M3 ℚ)) [⟨1, 2, 3⟩, ⟨0, 0, 1⟩] [⟨0, 0, 1, 0, 1, 0, -1, 0, 0⟩]
    = some ([⟨0, 0, -1, 0, 1, 0, 1, 0, 0⟩, ⟨0, 0, -1, 0, 1, 0, 1, 0, 0⟩], [⟨3, 2, -1⟩, ⟨1, 0, 0⟩]) := by decide +kernel
example : rotateOnSpot ([1, 1] : List (M3 ℚ)) [⟨1, 2, 3⟩, ⟨0, 0, 1⟩] [1, 1, 1] = none := by decide +kernel

/-- Two small objects. -/
def camA : Cam ℚ := ⟨2, [1, 1], [⟨1, 0, 0⟩, ⟨2, 0, 0⟩], none, .persp true [⟨1, 1, 0, 0⟩, ⟨2, 2, 0, 0⟩], none⟩
def camB : Cam ℚ := ⟨1, [1], [⟨3, 0, 0⟩], none, .persp true [⟨3, 3, 0, 0⟩], none⟩

example : (joinCams [camA, camB]).map (fun c => (c.n, c.T)) = .ok (3, [⟨1, 0, 0⟩, ⟨2, 0, 0⟩, ⟨3, 0, 0⟩]) := rfl
example : joinCams [camA, { camB with imageSize := some [(4, 5)] }] = .error .value := rfl
example : joinCams [camA, { camB with params := .persp false [⟨3, 3, 0, 0⟩] }] = .error .value := rfl

end P3D.CameraUtils
