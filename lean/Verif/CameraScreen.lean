/-
C26 and C27 continued: the projection matrices of the classes, NDC and screen space, camera centre,
keyword arguments.
-/
import Verif.CamerasProps

set_option linter.unusedSectionVars false
set_option linter.unusedSimpArgs false

namespace P3D.Camera
open T3d

variable {K : Type*} [Field K]

/-! ### The projection matrices -/

theorem det_of_mul {m n : M4 K} (h : m * n = 1) : m.det ≠ 0 :=
  (Matrix.isUnit_det_of_right_inverse h).ne_zero

section projections
variable [LinearOrder K] [IsStrictOrderedRing K]

/-- Valid parameters. -/
def FovP.Ok (c : FovP K) : Prop := c.znear ≠ 0 ∧ c.zfar ≠ 0 ∧ c.zfar ≠ c.znear ∧ c.aspect ≠ 0 ∧ c.tanHalf ≠ 0
def FovO.Ok (c : FovO K) : Prop := c.zfar ≠ c.znear ∧ c.maxX ≠ c.minX ∧ c.maxY ≠ c.minY
  ∧ c.scale.x ≠ 0 ∧ c.scale.y ≠ 0 ∧ c.scale.z ≠ 0
def Sfm.Ok (c : Sfm K) : Prop := c.fx ≠ 0 ∧ c.fy ≠ 0

instance [DecidableEq K] (c : FovP K) : Decidable c.Ok := by unfold FovP.Ok; infer_instance
instance [DecidableEq K] (c : FovO K) : Decidable c.Ok := by unfold FovO.Ok; infer_instance
instance [DecidableEq K] (c : Sfm K) : Decidable c.Ok := by unfold Sfm.Ok; infer_instance

def Params.Ok : Params K → Prop
  | .fovPersp l => ∀ c ∈ l, c.Ok
  | .fovOrtho l => ∀ c ∈ l, c.Ok
  | .persp _ l => ∀ c ∈ l, c.Ok
  | .ortho _ l => ∀ c ∈ l, c.Ok

/-- The simplified projection matrix of FoVPerspectiveCameras. -/
theorem fovPerspMat_eq {c : FovP K} (h : c.Ok) : fovPerspMat c
    = !![1 / (c.tanHalf * c.aspect), 0, 0, 0; 0, 1 / c.tanHalf, 0, 0;
        0, 0, c.zfar / (c.zfar - c.znear), -(c.zfar * c.znear) / (c.zfar - c.znear); 0, 0, 1, 0] := by
  obtain ⟨h1, h2, h3, h4, h5⟩ := h
  unfold fovPerspMat
  have e1 : 2 * c.znear / (c.tanHalf * c.znear * c.aspect - -(c.tanHalf * c.znear * c.aspect))
      = 1 / (c.tanHalf * c.aspect) := by field_simp; ring
  have e2 : 2 * c.znear / (c.tanHalf * c.znear - -(c.tanHalf * c.znear)) = 1 / c.tanHalf := by field_simp; ring
  simp only [e1, e2, add_neg_cancel, zero_div]

theorem fovPersp_det {c : FovP K} (h : c.Ok) : (fovPerspMat c).transpose.det ≠ 0 := by
  rw [Matrix.det_transpose, fovPerspMat_eq h]
  obtain ⟨h1, h2, h3, h4, h5⟩ := h
  have h6 : c.zfar - c.znear ≠ 0 := sub_ne_zero.mpr h3
  apply det_of_mul (n := !![c.tanHalf * c.aspect, 0, 0, 0; 0, c.tanHalf, 0, 0; 0, 0, 0, 1;
    0, 0, -(c.zfar - c.znear) / (c.zfar * c.znear), 1 / c.znear])
  ext i j
  fin_cases i <;> fin_cases j <;> simp [Matrix.mul_apply, Fin.sum_univ_four] <;> field_simp
  all_goals ring

theorem fovOrtho_det {c : FovO K} (h : c.Ok) : (fovOrthoMat c).transpose.det ≠ 0 := by
  obtain ⟨h1, h2, h3, h4, h5, h6⟩ := h
  have g1 : c.zfar - c.znear ≠ 0 := sub_ne_zero.mpr h1
  have g2 : c.maxX - c.minX ≠ 0 := sub_ne_zero.mpr h2
  have g3 : c.maxY - c.minY ≠ 0 := sub_ne_zero.mpr h3
  rw [Matrix.det_transpose]
  unfold fovOrthoMat
  apply det_of_mul (n := !![(c.maxX - c.minX) / (2 * c.scale.x), 0, 0, (c.maxX + c.minX) / (2 * c.scale.x);
    0, (c.maxY - c.minY) / (2 * c.scale.y), 0, (c.maxY + c.minY) / (2 * c.scale.y);
    0, 0, (c.zfar - c.znear) / c.scale.z, c.znear / c.scale.z; 0, 0, 0, 1])
  ext i j
  fin_cases i <;> fin_cases j <;> simp [Matrix.mul_apply, Fin.sum_univ_four] <;> field_simp <;> ring

theorem persp_det {c : Sfm K} (h : c.Ok) : (perspMat c).transpose.det ≠ 0 := by
  obtain ⟨h1, h2⟩ := h
  rw [Matrix.det_transpose]
  unfold perspMat
  apply det_of_mul (n := !![1 / c.fx, 0, 0, -c.px / c.fx; 0, 1 / c.fy, 0, -c.py / c.fy; 0, 0, 0, 1; 0, 0, 1, 0])
  ext i j
  fin_cases i <;> fin_cases j <;> simp [Matrix.mul_apply, Fin.sum_univ_four] <;> field_simp <;> ring

theorem ortho_det {c : Sfm K} (h : c.Ok) : (orthoMat c).transpose.det ≠ 0 := by
  obtain ⟨h1, h2⟩ := h
  rw [Matrix.det_transpose]
  unfold orthoMat
  apply det_of_mul (n := !![1 / c.fx, 0, 0, -c.px / c.fx; 0, 1 / c.fy, 0, -c.py / c.fy; 0, 0, 1, 0; 0, 0, 0, 1])
  ext i j
  fin_cases i <;> fin_cases j <;> simp [Matrix.mul_apply, Fin.sum_univ_four] <;> field_simp <;> ring

/-- **C26.** The computed calibration matrices are invertible and of the required form. -/
theorem calib_form {pr : Params K} (h : pr.Ok) : ∀ P ∈ (calib pr).map Matrix.transpose,
    P.det ≠ 0 ∧ Form pr P := by
  intro P hP
  obtain ⟨m, hm, rfl⟩ := List.mem_map.mp hP
  cases pr with
  | fovPersp l =>
    obtain ⟨c, hc, rfl⟩ := List.mem_map.mp hm
    refine ⟨fovPersp_det (h c hc), ?_⟩
    rw [fovPerspMat_eq (h c hc)]
    simp [Form]
  | fovOrtho l =>
    obtain ⟨c, hc, rfl⟩ := List.mem_map.mp hm
    exact ⟨fovOrtho_det (h c hc), by simp [Form, fovOrthoMat]⟩
  | persp i l =>
    obtain ⟨c, hc, rfl⟩ := List.mem_map.mp hm
    exact ⟨persp_det (h c hc), by simp [Form, perspMat]⟩
  | ortho i l =>
    obtain ⟨c, hc, rfl⟩ := List.mem_map.mp hm
    exact ⟨ortho_det (h c hc), by simp [Form, orthoMat]⟩

/-- A camera with valid parameters and no user matrix is valid for every call that overrides only `R`,
`T` by invertible matrices of the right number. -/
theorem valid_of_params {kw : Kw K} {c : Cam K} (hk : kw.kmat = none ∧ kw.params = none) (hm : c.kmat = none)
    (hp : c.params.Ok) (hl : (calib c.params).length = c.n) (hr : (setRT kw c).R.length = c.n)
    (ht : (setRT kw c).T.length = c.n) (hd : ∀ r ∈ (setRT kw c).R, r.det ≠ 0) : Valid kw c := by
  have e : projMats kw c = (calib c.params).map Matrix.transpose := by
    unfold projMats
    rw [hk.1, hk.2, hm]
    rfl
  refine ⟨hr, ht, by rw [e, List.length_map, hl], hd, ?_, ?_⟩ <;> rw [e]
  · exact fun P h => (calib_form hp P h).1
  · exact fun P h => (calib_form hp P h).2

/-- **C27 (documented projections).** Perspective cameras: `x = fx X / Z + px`, `y = fy Y / Z + py`, `z = 1 / Z`. -/
theorem persp_point (c : Sfm K) {v : V3 K} (hz : v.z ≠ 0) : transformPoint none v (perspMat c).transpose
    = ⟨c.fx * v.x / v.z + c.px, c.fy * v.y / v.z + c.py, 1 / v.z⟩ := by
  unfold transformPoint clampDenom
  ext <;> simp [hrow, perspMat, Matrix.vecMul, dotProduct, Fin.sum_univ_four]
  all_goals field_simp

/-- Orthographic cameras: `x = fx X + px`, `y = fy Y + py`, `z = Z`. -/
theorem ortho_point (c : Sfm K) (v : V3 K) : transformPoint none v (orthoMat c).transpose
    = ⟨c.fx * v.x + c.px, c.fy * v.y + c.py, v.z⟩ := by
  unfold transformPoint clampDenom
  ext <;> simp [hrow, orthoMat, Matrix.vecMul, dotProduct, Fin.sum_univ_four, mul_comm]

/-- FoV perspective cameras. -/
theorem fovPersp_point {c : FovP K} (h : c.Ok) {v : V3 K} (hz : v.z ≠ 0) :
    transformPoint none v (fovPerspMat c).transpose
      = ⟨v.x / (c.tanHalf * c.aspect * v.z), v.y / (c.tanHalf * v.z),
        c.zfar * (v.z - c.znear) / ((c.zfar - c.znear) * v.z)⟩ := by
  rw [fovPerspMat_eq h]
  obtain ⟨h1, h2, h3, h4, h5⟩ := h
  have h6 : c.zfar - c.znear ≠ 0 := sub_ne_zero.mpr h3
  unfold transformPoint clampDenom
  ext <;> simp [hrow, Matrix.vecMul, dotProduct, Fin.sum_univ_four]
  all_goals field_simp
  ring

/-- **C27 (view frustum).** The near plane has depth 0 and the far plane depth 1; the borders
`x = ± tan(fov/2)·aspect·z`, `y = ± tan(fov/2)·z` of the frustum have coordinates ± 1. -/
theorem fovPersp_frustum {c : FovP K} (h : c.Ok) (sx sy : K) :
    (∀ x y, (transformPoint none ⟨x, y, c.znear⟩ (fovPerspMat c).transpose).z = 0)
    ∧ (∀ x y, (transformPoint none ⟨x, y, c.zfar⟩ (fovPerspMat c).transpose).z = 1)
    ∧ ∀ z, z ≠ 0 → (transformPoint none ⟨sx * (c.tanHalf * c.aspect * z), sy * (c.tanHalf * z), z⟩
        (fovPerspMat c).transpose).x = sx
      ∧ (transformPoint none ⟨sx * (c.tanHalf * c.aspect * z), sy * (c.tanHalf * z), z⟩
        (fovPerspMat c).transpose).y = sy := by
  have hh := h
  obtain ⟨h1, h2, h3, h4, h5⟩ := h
  have h6 : c.zfar - c.znear ≠ 0 := sub_ne_zero.mpr h3
  refine ⟨fun x y => ?_, fun x y => ?_, fun z hz => ?_⟩
  · rw [fovPersp_point hh h1]; simp
  · rw [fovPersp_point hh h2]; simp only; field_simp
  · rw [fovPersp_point hh hz]
    constructor <;> simp only <;> field_simp

/-- **C27 (depth order).** For `0 < znear < zfar` the projected depth increases with the view depth, so
depth tests in NDC agree with depth tests in view space. -/
theorem fovPersp_monotone {c : FovP K} (h : c.Ok) (hn : 0 < c.znear) (hf : c.znear < c.zfar) {v w : V3 K}
    (hv : 0 < v.z) (hvw : v.z < w.z) :
    (transformPoint none v (fovPerspMat c).transpose).z < (transformPoint none w (fovPerspMat c).transpose).z := by
  have hw : 0 < w.z := lt_trans hv hvw
  rw [fovPersp_point h hv.ne', fovPersp_point h hw.ne']
  simp only
  have h6 : 0 < c.zfar - c.znear := sub_pos.mpr hf
  have hz : 0 < c.zfar := lt_trans hn hf
  rw [div_lt_div_iff₀ (mul_pos h6 hv) (mul_pos h6 hw)]
  have : c.zfar * (w.z - c.znear) * ((c.zfar - c.znear) * v.z) - c.zfar * (v.z - c.znear) * ((c.zfar - c.znear) * w.z)
      = c.zfar * (c.zfar - c.znear) * c.znear * (w.z - v.z) := by ring
  have h7 : 0 < c.zfar * (c.zfar - c.znear) * c.znear * (w.z - v.z) :=
    mul_pos (mul_pos (mul_pos hz h6) hn) (sub_pos.mpr hvw)
  linarith

/-- FoV orthographic cameras: an affine map; with unit scale the box
`[minX, maxX] × [minY, maxY] × [znear, zfar]` becomes `[-1, 1] × [-1, 1] × [0, 1]`. -/
theorem fovOrtho_box {c : FovO K} (h : c.Ok) (hs : c.scale = ⟨1, 1, 1⟩) (a b d : K) :
    transformPoint none ⟨c.minX + a * (c.maxX - c.minX), c.minY + b * (c.maxY - c.minY),
      c.znear + d * (c.zfar - c.znear)⟩ (fovOrthoMat c).transpose = ⟨2 * a - 1, 2 * b - 1, d⟩ := by
  obtain ⟨h1, h2, h3, h4, h5, h6⟩ := h
  have g1 : c.zfar - c.znear ≠ 0 := sub_ne_zero.mpr h1
  have g2 : c.maxX - c.minX ≠ 0 := sub_ne_zero.mpr h2
  have g3 : c.maxY - c.minY ≠ 0 := sub_ne_zero.mpr h3
  unfold transformPoint clampDenom
  ext <;> simp [hrow, fovOrthoMat, Matrix.vecMul, dotProduct, Fin.sum_univ_four, hs]
  all_goals field_simp
  all_goals ring

/-- With another z scale the near plane does not have depth 0. -/
theorem fovOrtho_scale_near {c : FovO K} (h : c.Ok) (hn : c.znear ≠ 0) (x y : K) :
    (transformPoint none ⟨x, y, c.znear⟩ (fovOrthoMat c).transpose).z = 0 ↔ c.scale.z = 1 := by
  obtain ⟨h1, h2, h3, h4, h5, h6⟩ := h
  have g1 : c.zfar - c.znear ≠ 0 := sub_ne_zero.mpr h1
  unfold transformPoint clampDenom
  simp [hrow, fovOrthoMat, Matrix.vecMul, dotProduct, Fin.sum_univ_four]
  constructor
  · intro h
    field_simp at h
    have : c.znear * (c.scale.z - 1) = 0 := by linear_combination h
    rcases mul_eq_zero.mp this with h | h
    · exact absurd h hn
    · exact sub_eq_zero.mp h
  · intro h; rw [h]; field_simp; ring

end projections

/-! ### NDC and screen -/

section screen
variable [LinearOrder K] [IsStrictOrderedRing K]

/-- The scale: half the smaller side. -/
def half (hw : K × K) : K := min hw.1 hw.2 / 2

/-- The NDC-to-screen matrix for one camera, as an affine map. -/
def screenMat (flip : Bool) (hw : K × K) : M4 K :=
  if flip then M4.affine ⟨-half hw, 0, 0, 0, -half hw, 0, 0, 0, 1⟩ ⟨hw.2 / 2, hw.1 / 2, 0⟩
  else M4.affine ⟨half hw, 0, 0, 0, half hw, 0, 0, 0, 1⟩ ⟨-hw.2 / 2, -hw.1 / 2, 0⟩

theorem half_pos {hw : K × K} (h : 0 < hw.1 ∧ 0 < hw.2) : 0 < half hw := by
  unfold half; exact div_pos (lt_min h.1 h.2) two_pos

theorem screenMat_det {hw : K × K} (h : 0 < hw.1 ∧ 0 < hw.2) (flip : Bool) : (screenMat flip hw).det ≠ 0 := by
  have := (half_pos h).ne'
  unfold screenMat
  split_ifs <;> apply affine_det <;> simp [M3.det, this]

/-- All image sizes are positive and there is one of them or one per camera. -/
def SizesOk (n : Nat) (hw : List (K × K)) : Prop :=
  (hw.length = n ∨ hw.length = 1) ∧ ∀ s ∈ hw, 0 < s.1 ∧ 0 < s.2

theorem SizesOk.pick {n : Nat} {hw : List (K × K)} (h : SizesOk n hw) {i : Nat} (hi : i < n) :
    0 < (T3d.pick (0, 0) hw i).1 ∧ 0 < (T3d.pick (0, 0) hw i).2 := by
  apply h.2
  unfold T3d.pick
  rw [List.getD_eq_getElem?_getD]
  have hlt : (if hw.length = 1 then 0 else i) < hw.length := by
    split_ifs with h1
    · omega
    · rcases h.1 with h2 | h2 <;> omega
  rw [List.getElem?_eq_getElem hlt]
  exact List.getElem_mem hlt

/-- The NDC-to-screen matrices. -/
def screenMats (n : Nat) (flip : Bool) (hw : List (K × K)) : List (M4 K) :=
  (List.range n).map fun i => screenMat flip (T3d.pick (0, 0) hw i)

theorem ndcToScreen_good {n : Nat} {hw : List (K × K)} (h : SizesOk n hw) (flip : Bool) :
    ∃ t, ndcToScreen n flip (some hw) = .ok t ∧ Good t (screenMats n flip hw) := by
  unfold ndcToScreen
  simp only
  rw [if_pos h.1]
  have e1 : ∀ s : K × K, (ndcToScreenMat s).transpose = screenMat false s := by
    intro s
    unfold ndcToScreenMat screenMat half
    ext i j
    fin_cases i <;> fin_cases j <;> simp [M4.affine]
  have g1 : Good (.mk .base .f32 ((List.range n).map fun i => (ndcToScreenMat (T3d.pick (0, 0) hw i)).transpose) [])
      (screenMats n false hw) := by
    have : ((List.range n).map fun i => (ndcToScreenMat (T3d.pick (0, 0) hw i)).transpose) = screenMats n false hw := by
      unfold screenMats; simp only [e1]
    rw [this]
    apply good_base
    intro x hx
    unfold screenMats at hx
    obtain ⟨i, hi, rfl⟩ := List.mem_map.mp hx
    exact screenMat_det (h.pick (List.mem_range.mp hi)) _
  cases flip with
  | false => exact ⟨_, rfl, g1⟩
  | true =>
    refine ⟨_, rfl, ?_⟩
    simp only [if_true]
    have hf : ((flipMat : M4 K).transpose).det ≠ 0 := by
      apply det_of_mul (n := flipMat)
      unfold flipMat
      ext i j
      fin_cases i <;> fin_cases j <;> simp [Matrix.mul_apply, Fin.sum_univ_four]
    have g2 : Good (.mk .base .f32 (List.replicate n (flipMat : M4 K).transpose) [])
        (List.replicate n (flipMat : M4 K).transpose) :=
      good_base _ (fun x hx => by rw [List.eq_of_mem_replicate hx]; exact hf)
    have g3 := good_compose g1 g2 (by simp [screenMats])
    have : List.zipWith (· * ·) (screenMats n false hw) (List.replicate n (flipMat : M4 K).transpose)
        = screenMats n true hw := by
      unfold screenMats
      apply List.ext_getElem
      · simp
      · intro i h1 h2
        simp only [List.getElem_zipWith, List.getElem_map, List.getElem_range, List.getElem_replicate]
        unfold screenMat flipMat
        ext i j
        fin_cases i <;> fin_cases j <;>
          simp [Matrix.mul_apply, Fin.sum_univ_four, M4.affine] <;> ring
    rw [this] at g3
    exact g3

/-- **C27 (axes).** NDC to screen with `with_xyflip=True`: x to the right, y down, origin in the top left
corner, depth unchanged. -/
theorem screenMat_point (hw : K × K) (p : V3 K) : transformPoint none p (screenMat true hw)
    = ⟨hw.2 / 2 - half hw * p.x, hw.1 / 2 - half hw * p.y, p.z⟩ := by
  unfold screenMat
  rw [if_pos rfl, transformPoint_affine]
  ext <;> simp [M3.vecMul] <;> ring

/-- Without the flip. -/
theorem screenMat_point' (hw : K × K) (p : V3 K) : transformPoint none p (screenMat false hw)
    = ⟨half hw * p.x - hw.2 / 2, half hw * p.y - hw.1 / 2, p.z⟩ := by
  unfold screenMat
  rw [if_neg (by simp), transformPoint_affine]
  ext <;> simp [M3.vecMul] <;> ring

/-- **C27 (corners).** For every image size (height, width), the NDC corner (+, +) is the top left corner
(0, 0) of the screen and the corner (-, -) is the bottom right corner (width, height); the smaller side
covers [-1, 1] and the larger side [-u, u] where u is the ratio of the sides. -/
theorem corners {hw : K × K} (h : 0 < hw.1 ∧ 0 < hw.2) (z : K) :
    transformPoint none ⟨hw.2 / min hw.1 hw.2, hw.1 / min hw.1 hw.2, z⟩ (screenMat true hw) = ⟨0, 0, z⟩
    ∧ transformPoint none ⟨-(hw.2 / min hw.1 hw.2), -(hw.1 / min hw.1 hw.2), z⟩ (screenMat true hw)
      = ⟨hw.2, hw.1, z⟩
    ∧ (hw.2 ≤ hw.1 → hw.2 / min hw.1 hw.2 = 1 ∧ 1 ≤ hw.1 / min hw.1 hw.2)
    ∧ (hw.1 ≤ hw.2 → hw.1 / min hw.1 hw.2 = 1 ∧ 1 ≤ hw.2 / min hw.1 hw.2) := by
  have hm : 0 < min hw.1 hw.2 := lt_min h.1 h.2
  have hm' := hm.ne'
  rw [screenMat_point, screenMat_point]
  unfold half
  refine ⟨?_, ?_, ?_, ?_⟩
  · ext <;> simp only <;> field_simp <;> ring
  · ext <;> simp only <;> field_simp <;> ring
  · intro hle
    rw [min_eq_right hle]
    exact ⟨div_self h.2.ne', (one_le_div h.2).mpr hle⟩
  · intro hle
    rw [min_eq_left hle]
    exact ⟨div_self h.1.ne', (one_le_div h.1).mpr hle⟩

/-- **C27 (inverse).** The two transforms are inverse to each other on all points, for every batch of
image sizes and with or without the flip. -/
theorem ndc_screen_inverse {n : Nat} {hw : List (K × K)} (h : SizesOk n hw) (flip : Bool)
    {b : List (List (V3 K))} (hb : b.length = n) :
    ∃ t s q q', ndcToScreen n flip (some hw) = .ok t ∧ screenToNdc n flip (some hw) = .ok s
      ∧ transformPoints t none (.batch b) = .ok q ∧ transformPoints s none q = .ok (.batch b)
      ∧ transformPoints s none (.batch b) = .ok q' ∧ transformPoints t none q' = .ok (.batch b) := by
  obtain ⟨t, ht, gt⟩ := ndcToScreen_good h flip
  have hlen : (screenMats n flip hw).length = n := by simp [screenMats]
  obtain ⟨s, hs, gs, hu⟩ := good_inverse gt
  have haff : ∀ x ∈ screenMats n flip hw, ∀ p, Matrix.vecMul (hrow p) x 3 ≠ 0 ∧ Matrix.vecMul (hrow p) x⁻¹ 3 ≠ 0 := by
    intro x hx p
    unfold screenMats at hx
    obtain ⟨i, hi, rfl⟩ := List.mem_map.mp hx
    have hp := h.pick (List.mem_range.mp hi)
    generalize T3d.pick (0, 0) hw i = s at hp
    have e : ∃ A t A' t', screenMat flip s = M4.affine A t ∧ M4.affine A t * M4.affine A' t' = 1 := by
      have hh := (half_pos hp).ne'
      cases flip
      · refine ⟨_, _, ⟨1 / half s, 0, 0, 0, 1 / half s, 0, 0, 0, 1⟩, ⟨s.2 / 2 / half s, s.1 / 2 / half s, 0⟩, rfl, ?_⟩
        rw [affine_mul, ← affine_one]
        congr 1
        · ext <;> simp [M3.mul_def, M3.one_def, hh]
        · ext <;> simp [M3.vecMul] <;> field_simp <;> ring
      · refine ⟨_, _, ⟨-1 / half s, 0, 0, 0, -1 / half s, 0, 0, 0, 1⟩, ⟨s.2 / 2 / half s, s.1 / 2 / half s, 0⟩, rfl, ?_⟩
        rw [affine_mul, ← affine_one]
        congr 1
        · ext <;> simp [M3.mul_def, M3.one_def, hh] <;> field_simp
        · ext <;> simp [M3.vecMul] <;> field_simp <;> ring
    obtain ⟨A, t, A', t', e1, e2⟩ := e
    rw [e1, inv_eq e2, affine_w, affine_w]
    exact ⟨one_ne_zero, one_ne_zero⟩
  have hst : screenToNdc n flip (some hw) = .ok s := by
    unfold screenToNdc
    rw [ht]
    exact hs
  refine ⟨t, s, _, _, ht, hst, transformPoints_zip gt.2 (hb.trans hlen.symm), ?_,
    transformPoints_zip gs (by simp [hb, hlen]), ?_⟩
  · rw [transformPoints_zip gs (by simp [hb, hlen])]
    congr 2
    apply List.ext_getElem
    · simp [hb, hlen]
    · intro i h1 h2
      simp only [List.getElem_zipWith, List.getElem_map, List.map_map]
      conv_rhs => rw [← List.map_id b[i]]
      apply List.map_congr_left
      intro p _
      exact transformPoint_inv (hu _ (List.getElem_mem _)) (haff _ (List.getElem_mem _) p).1
  · rw [transformPoints_zip gt.2 (by simp [hb, hlen])]
    congr 2
    apply List.ext_getElem
    · simp [hb, hlen]
    · intro i h1 h2
      simp only [List.getElem_zipWith, List.getElem_map, List.map_map]
      conv_rhs => rw [← List.map_id b[i]]
      apply List.map_congr_left
      intro p _
      simp only [Function.comp, id]
      have hu1 := hu _ (List.getElem_mem (by simp at h1; omega : i < (screenMats n flip hw).length))
      rw [transformPoint_mul _ _ _ (haff _ (List.getElem_mem _) p).2, mul_eq_one_comm.mp hu1,
        transformPoint_one]

/-! ### Cameras defined in screen space -/

/-- Principal point read from a (transposed) projection matrix. -/
def ppOf (pr : Params K) (P : M4 K) : K × K :=
  match pr with
  | .persp _ _ => (P 2 0, P 2 1)
  | _ => (P 3 0, P 3 1)

/-- Screen-camera to NDC for one camera: `x ↦ (x - 2 px + W / 2) / s`. -/
def ndMat (pr : Params K) (P : M4 K) (hw : K × K) : M4 K :=
  M4.affine ⟨1 / half hw, 0, 0, 0, 1 / half hw, 0, 0, 0, 1⟩
    ⟨(hw.2 / 2 - 2 * (ppOf pr P).1) / half hw, (hw.1 / 2 - 2 * (ppOf pr P).2) / half hw, 0⟩

theorem screenMat_inv {s : K × K} (h : 0 < s.1 ∧ 0 < s.2) : (screenMat false s)⁻¹
    = M4.affine ⟨1 / half s, 0, 0, 0, 1 / half s, 0, 0, 0, 1⟩ ⟨s.2 / 2 / half s, s.1 / 2 / half s, 0⟩ := by
  have hh := (half_pos h).ne'
  apply inv_eq
  unfold screenMat
  rw [if_neg (by simp), affine_mul, ← affine_one]
  congr 1
  · ext <;> simp [M3.mul_def, M3.one_def, hh]
  · ext <;> simp [M3.vecMul] <;> field_simp <;> ring

/-- The NDC matrices of a screen camera. -/
def ndMats (kw : Kw K) (c : Cam K) (hw : List (K × K)) : List (M4 K) :=
  List.zipWith (ndMat c.params) (projMats kw c) ((List.range c.n).map fun i => T3d.pick (0, 0) hw i)

theorem ndcCamera_good {kw : Kw K} {c : Cam K} {hw : List (K × K)} (hn : c.params.inNdc = false)
    (hi : kw.imageSize.or c.imageSize = some hw) (hs : SizesOk c.n hw) (hl : (projMats kw c).length = c.n)
    (hd : ∀ P ∈ projMats kw c, P.det ≠ 0) : ∃ s, ndcCamera kw c = .ok s ∧ Good s (ndMats kw c hw) := by
  obtain ⟨p, hp, gp⟩ := projection_good hl hd
  obtain ⟨t, ht, gt⟩ := ndcToScreen_good hs false
  obtain ⟨it, hit, git, _⟩ := good_inverse gt
  have hpp : principalPoint kw c = .ok ((projMats kw c).map (ppOf c.params)) := by
    unfold principalPoint
    rw [hp]
    show (match getMatrix p with
      | none => Except.error Err.value
      | some ms => Except.ok (match c.params with
        | .persp _ _ => ms.map fun m : M4 K => (m 2 0, m 2 1)
        | _ => ms.map fun m : M4 K => (m 3 0, m 3 1))) = _
    rw [gp.2]
    cases c.params <;> rfl
  have hsc : screenToNdc c.n false (some hw) = .ok it := by
    unfold screenToNdc; rw [ht]; exact hit
  refine ⟨compose (.mk .base .f32 (((projMats kw c).map (ppOf c.params)).map prPointFix) []) [it], ?_, ?_⟩
  · unfold ndcCamera
    rw [if_neg (by simp [hn]), hpp, hi, hsc]
    rfl
  · have g1 : Good (.mk .base .f32 (((projMats kw c).map (ppOf c.params)).map prPointFix) [])
        (((projMats kw c).map (ppOf c.params)).map prPointFix) := by
      apply good_base
      intro x hx
      obtain ⟨q, _, rfl⟩ := List.mem_map.mp hx
      unfold prPointFix translateMat
      exact affine_det (by simp [M3.det, M3.one_def]) _
    have hok : Ok it := by
      have hti : ∃ m, t = .mk .base .f32 m [] := by
        unfold ndcToScreen at ht
        simp only at ht
        rw [if_pos hs.1] at ht
        exact ⟨_, (Except.ok.inj ht).symm⟩
      obtain ⟨m, rfl⟩ := hti
      have hm := gt.1
      rw [Ok] at hm
      rw [inverse, mapM_inverseMat hm.1, inverses] at hit
      obtain rfl := Except.ok.inj hit
      rw [Ok, Oks]
      refine ⟨fun x hx => ?_, trivial⟩
      obtain ⟨y, hy, rfl⟩ := List.mem_map.mp hx
      exact (Matrix.isUnit_nonsing_inv_det _ (isUnit_iff_ne_zero.mpr (hm.1 y hy))).ne_zero
    have g2 : Good it ((screenMats c.n false hw).map (·⁻¹)) := ⟨hok, git⟩
    have g3 := good_compose g1 g2 (by simp [screenMats, hl])
    have : List.zipWith (· * ·) (((projMats kw c).map (ppOf c.params)).map prPointFix)
        ((screenMats c.n false hw).map (·⁻¹)) = ndMats kw c hw := by
      unfold ndMats screenMats
      apply List.ext_getElem
      · simp
      · intro i h1 h2
        simp only [List.getElem_zipWith, List.getElem_map, List.getElem_range]
        have hi : i < c.n := by simp at h2; exact h2.2
        have hp := hs.pick hi
        rw [screenMat_inv hp]
        unfold prPointFix translateMat ndMat
        rw [affine_mul]
        have hh := (half_pos hp).ne'
        congr 1
        · ext <;> simp [M3.mul_def, M3.one_def]
        · ext <;> simp [M3.vecMul] <;> field_simp <;> ring
    rw [this] at g3
    exact g3

theorem nd_w (pr : Params K) (P m : M4 K) (s : K × K) (p : V3 K) :
    Matrix.vecMul (hrow p) (m * ndMat pr P s) 3 = Matrix.vecMul (hrow p) m 3 := by
  rw [← Matrix.vecMul_vecMul]
  generalize Matrix.vecMul (hrow p) m = q
  unfold ndMat
  simp [M4.affine, Matrix.vecMul, dotProduct, Fin.sum_univ_four]

/-- The transform to NDC of a screen camera. -/
theorem toNdc_good {kw : Kw K} {c : Cam K} (hv : Valid kw c) {hw : List (K × K)} (hn : c.params.inNdc = false)
    (hi : kw.imageSize.or c.imageSize = some hw) (hs : SizesOk c.n hw) :
    ∃ t, (toNdc kw c).2 = .ok t ∧ Good t (List.zipWith (· * ·) (List.zipWith (· * ·)
      (List.zipWith M4.affine (setRT kw c).R (setRT kw c).T) (projMats kw c)) (ndMats kw c hw)) := by
  obtain ⟨w, p, t, hw', gw, hp, gp, ht, gt⟩ := full_good hv
  obtain ⟨s, h1, g1⟩ := ndcCamera_good (kw := kw) (c := setRT kw c) hn hi hs hv.plen hv.pdet
  refine ⟨compose t [s], ?_, good_compose gt g1 ?_⟩
  · unfold toNdc
    simp only [ht]
    show (if c.params.inNdc = true then Except.ok t else do
      let s ← ndcCamera kw (setRT kw c)
      .ok (compose t [s])) = _
    rw [if_neg (by simp [hn]), h1]
    rfl
  · have : (projMats kw (setRT kw c)).length = c.n := hv.plen
    have h2 : (setRT kw c).n = c.n := rfl
    simp [ndMats, hv.rlen, hv.tlen, hv.plen, this, h2]

theorem ndMat_point (pr : Params K) (P : M4 K) (s : K × K) (p : V3 K) : transformPoint none p (ndMat pr P s)
    = ⟨(p.x - 2 * (ppOf pr P).1 + s.2 / 2) / half s, (p.y - 2 * (ppOf pr P).2 + s.1 / 2) / half s, p.z⟩ := by
  unfold ndMat
  rw [transformPoint_affine]
  ext <;> simp [M3.vecMul] <;> ring

/-- The NDC coordinates of points for a screen camera, from the projected points `q`. -/
def ndcOf (kw : Kw K) (c : Cam K) (hw : List (K × K)) (q : List (List (V3 K))) : List (List (V3 K)) :=
  List.zipWith (fun ps m => ps.map fun p => transformPoint none p m) q (ndMats kw c hw)

theorem transformPtsNdc_eq {kw : Kw K} {c : Cam K} (hv : Valid kw c) {hw : List (K × K)}
    (hn : c.params.inNdc = false) (hi : kw.imageSize.or c.imageSize = some hw) (hs : SizesOk c.n hw)
    {b : List (List (V3 K))} (hb : b.length = c.n)
    (hz : c.params.isPersp → ∀ l ∈ viewOf (setRT kw c).R (setRT kw c).T b, ∀ v ∈ l, v.z ≠ 0) :
    (transformPtsNdc kw none (.batch b) c).2 = .ok (.batch (ndcOf kw c hw (projOf kw c b))) := by
  obtain ⟨t, h1, g1⟩ := toNdc_good hv hn hi hs
  unfold transformPtsNdc
  simp only [h1]
  show transformPoints t none (.batch b) = _
  have hl : (ndMats kw c hw).length = c.n := by simp [ndMats, hv.plen]
  rw [transformPoints_zip g1.2 (by simp [hb, hv.rlen, hv.tlen, hv.plen, hl])]
  congr 2
  unfold ndcOf
  rw [projOf_eq]
  apply List.ext_getElem
  · simp
  · intro i h1 h2
    have hib : i < b.length := by simp at h1; omega
    simp only [List.getElem_zipWith, List.map_map]
    apply List.map_congr_left
    intro p hp
    simp only [Function.comp]
    have := full_w_ne hv hb hz i hib p hp
    simp only [List.getElem_zipWith] at this
    rw [transformPoint_mul _ _ _ this]

/-- **C27 (screen cameras).** A PerspectiveCameras object defined in screen space (focal length and principal
point in pixels): `transform_points_screen` gives `(px - fx X / Z, py - fy Y / Z, 1 / Z)` in image
coordinates, whatever the image size. -/
theorem persp_screen {kw : Kw K} {c : Cam K} {l : List (Sfm K)} (hv : Valid kw c) (hk : kw.kmat = none)
    (hkp : kw.params = none) (hm : c.kmat = none) (hc : c.params = .persp false l) {hw : List (K × K)}
    (hi : kw.imageSize.or c.imageSize = some hw) (hs : SizesOk c.n hw) {b : List (List (V3 K))}
    (hb : b.length = c.n) (hz : ∀ l ∈ viewOf (setRT kw c).R (setRT kw c).T b, ∀ v ∈ l, v.z ≠ 0) :
    (transformPtsScreen kw none true (.batch b) c).2 = .ok (.batch (List.zipWith
      (fun ps (s : Sfm K) => ps.map fun v => ⟨s.px - s.fx * v.x / v.z, s.py - s.fy * v.y / v.z, 1 / v.z⟩)
      (viewOf (setRT kw c).R (setRT kw c).T b) l)) := by
  have hn : c.params.inNdc = false := by rw [hc]; rfl
  have h1 := transformPtsNdc_eq hv hn hi hs hb (fun _ => hz)
  obtain ⟨t, ht, gt⟩ := ndcToScreen_good hs true
  unfold transformPtsScreen
  simp only [h1]
  show (do
    let t ← ndcToScreen c.n true (kw.imageSize.or c.imageSize)
    transformPoints t none (.batch (ndcOf kw c hw (projOf kw c b)))) = _
  rw [hi, ht]
  show transformPoints t none (.batch (ndcOf kw c hw (projOf kw c b))) = _
  have hP : projMats kw c = l.map fun s => (perspMat s).transpose := by
    unfold projMats
    rw [hk, hkp, hm, hc]
    simp [calib]
  have hpl := hv.plen
  rw [hP, List.length_map] at hpl
  have hVl : (viewOf (setRT kw c).R (setRT kw c).T b).length = c.n := by
    unfold viewOf; simp [hb, hv.rlen, hv.tlen]
  rw [transformPoints_zip gt.2 (by simp [ndcOf, projOf, ndMats, hVl, hv.plen, screenMats])]
  congr 2
  unfold ndcOf projOf ndMats screenMats
  generalize viewOf (setRT kw c).R (setRT kw c).T b = V at *
  rw [hP, hc]
  apply List.ext_getElem
  · simp [hVl, hpl]
  · intro i g1 g2
    have hic : i < c.n := by simp [hVl, hpl] at g2; exact g2
    simp only [List.getElem_zipWith, List.getElem_map, List.getElem_range, List.map_map]
    apply List.map_congr_left
    intro v hv'
    simp only [Function.comp]
    rw [persp_point _ (hz _ (List.getElem_mem _) v hv'), ndMat_point, screenMat_point]
    have hh := (half_pos (hs.pick hic)).ne'
    ext <;> simp [ppOf, perspMat] <;> field_simp <;> ring

/-- **C27.** The same for OrthographicCameras: `(px - fx X, py - fy Y, Z)`. -/
theorem ortho_screen {kw : Kw K} {c : Cam K} {l : List (Sfm K)} (hv : Valid kw c) (hk : kw.kmat = none)
    (hkp : kw.params = none) (hm : c.kmat = none) (hc : c.params = .ortho false l) {hw : List (K × K)}
    (hi : kw.imageSize.or c.imageSize = some hw) (hs : SizesOk c.n hw) {b : List (List (V3 K))}
    (hb : b.length = c.n) :
    (transformPtsScreen kw none true (.batch b) c).2 = .ok (.batch (List.zipWith
      (fun ps (s : Sfm K) => ps.map fun v => ⟨s.px - s.fx * v.x, s.py - s.fy * v.y, v.z⟩)
      (viewOf (setRT kw c).R (setRT kw c).T b) l)) := by
  have hn : c.params.inNdc = false := by rw [hc]; rfl
  have h1 := transformPtsNdc_eq hv hn hi hs hb (fun h => by rw [hc] at h; exact h.elim)
  obtain ⟨t, ht, gt⟩ := ndcToScreen_good hs true
  unfold transformPtsScreen
  simp only [h1]
  show (do
    let t ← ndcToScreen c.n true (kw.imageSize.or c.imageSize)
    transformPoints t none (.batch (ndcOf kw c hw (projOf kw c b)))) = _
  rw [hi, ht]
  show transformPoints t none (.batch (ndcOf kw c hw (projOf kw c b))) = _
  have hP : projMats kw c = l.map fun s => (orthoMat s).transpose := by
    unfold projMats
    rw [hk, hkp, hm, hc]
    simp [calib]
  have hpl := hv.plen
  rw [hP, List.length_map] at hpl
  have hVl : (viewOf (setRT kw c).R (setRT kw c).T b).length = c.n := by
    unfold viewOf; simp [hb, hv.rlen, hv.tlen]
  rw [transformPoints_zip gt.2 (by simp [ndcOf, projOf, ndMats, hVl, hv.plen, screenMats])]
  congr 2
  unfold ndcOf projOf ndMats screenMats
  generalize viewOf (setRT kw c).R (setRT kw c).T b = V at *
  rw [hP, hc]
  apply List.ext_getElem
  · simp [hVl, hpl]
  · intro i g1 g2
    have hic : i < c.n := by simp [hVl, hpl] at g2; exact g2
    simp only [List.getElem_zipWith, List.getElem_map, List.getElem_range, List.map_map]
    apply List.map_congr_left
    intro v _
    simp only [Function.comp]
    rw [ortho_point, ndMat_point, screenMat_point]
    have hh := (half_pos (hs.pick hic)).ne'
    ext <;> simp [ppOf, orthoMat] <;> field_simp <;> ring

/-- The NDC parameters equivalent to screen parameters, as documented in docs/notes/cameras.md:
`f_ndc = f · 2 / s`, `p_ndc = -(p - size / 2) · 2 / s` with `s = min(height, width)`. -/
def Sfm.toNdc (c : Sfm K) (hw : K × K) : Sfm K :=
  ⟨c.fx * 2 / min hw.1 hw.2, c.fy * 2 / min hw.1 hw.2,
    -(c.px - hw.2 / 2) * 2 / min hw.1 hw.2, -(c.py - hw.1 / 2) * 2 / min hw.1 hw.2⟩

/-- **C27 (equivalent cameras).** Projecting with the screen camera and converting to NDC is projecting with
the NDC camera of the documented parameters. -/
theorem screen_ndc_equiv (c : Sfm K) {hw : K × K} (h : 0 < hw.1 ∧ 0 < hw.2) (pr : Params K)
    (hpr : ∃ l, pr = .persp false l) {v : V3 K} (hz : v.z ≠ 0) :
    transformPoint none v ((perspMat c).transpose * ndMat pr (perspMat c).transpose hw)
      = transformPoint none v (perspMat (c.toNdc hw)).transpose := by
  obtain ⟨l, rfl⟩ := hpr
  have hm : min hw.1 hw.2 ≠ 0 := (lt_min h.1 h.2).ne'
  have hw' : Matrix.vecMul (hrow v) (perspMat c).transpose 3 ≠ 0 := by
    simpa [hrow, perspMat, Matrix.vecMul, dotProduct, Fin.sum_univ_four] using hz
  rw [← transformPoint_mul _ _ _ hw', persp_point _ hz, persp_point _ hz, ndMat_point]
  unfold half Sfm.toNdc
  ext <;> simp [ppOf, perspMat] <;> field_simp <;> ring

/-- **C26 (from NDC).** Screen cameras: points projected with `transform_points_ndc`, with their view depth,
are recovered by `unproject_points(from_ndc=True)`. -/
theorem unproject_from_ndc {kw : Kw K} {c : Cam K} (hv : Valid kw c) (hk : kw.kmat = none ∧ kw.params = none)
    {hw : List (K × K)} (hn : c.params.inNdc = false) (hki : kw.imageSize = none)
    (hi : c.imageSize = some hw) (hs : SizesOk c.n hw) {b : List (List (V3 K))} (hb : b.length = c.n)
    (hz : c.params.isPersp → ∀ l ∈ viewOf (setRT kw c).R (setRT kw c).T b, ∀ v ∈ l, v.z ≠ 0) :
    ∃ w view xy, (getWorldToView kw c).2 = .ok w
      ∧ transformPoints w none (.batch b) = .ok (.batch view)
      ∧ (transformPtsNdc kw none (.batch b) c).2 = .ok (.batch xy)
      ∧ (unproject kw true false true (.batch (withDepth xy view)) (transformPtsNdc kw none (.batch b) c).1).2
        = .ok (.batch b) := by
  have hi' : kw.imageSize.or c.imageSize = some hw := by rw [hki, hi]; rfl
  obtain ⟨w, p, t0, hw0, gw, hp, gp, ht0, gt0⟩ := full_good hv
  refine ⟨w, viewOf (setRT kw c).R (setRT kw c).T b, ndcOf kw c hw (projOf kw c b), hw0,
    view_eq gw (hv.rlen.trans hv.tlen.symm) (hb.trans hv.rlen.symm), transformPtsNdc_eq hv hn hi' hs hb hz, ?_⟩
  have hc1 : (transformPtsNdc kw none (.batch b) c).1 = setRT kw c := rfl
  rw [hc1]
  have hpm : projMats noKw (setRT kw c) = projMats kw c := by
    unfold projMats noKw
    rw [hk.1, hk.2]
    rfl
  obtain ⟨s, es, gs⟩ := ndcCamera_good (kw := noKw) (c := setRT kw c) (hw := hw) hn (by rw [← hi]; rfl) hs
    (by rw [hpm]; exact hv.plen) (by rw [hpm]; exact hv.pdet)
  have hnd : ndMats noKw (setRT kw c) hw = ndMats kw c hw := by
    unfold ndMats
    rw [hpm]
    rfl
  rw [hnd] at gs
  have hndl : (ndMats kw c hw).length = c.n := by simp [ndMats, hv.plen]
  have gt := good_compose gt0 gs (by simp [hv.rlen, hv.tlen, hv.plen, hndl])
  have hfull : fullProjection kw (setRT kw c) = fullProjection kw c := by
    unfold fullProjection
    rw [setRT_setRT]
  have htr : unprojTransform kw true true (setRT kw c) = (setRT kw c, .ok (compose t0 [s])) := by
    have h1 : fullProjection kw c = (setRT kw c, .ok t0) := by rw [← ht0]; rfl
    unfold unprojTransform
    rw [show (setRT kw c).params = c.params from rfl]
    cases hc : c.params with
    | fovPersp l => rw [hc] at hn; simp [Params.inNdc] at hn
    | fovOrtho l => rw [hc] at hn; simp [Params.inNdc] at hn
    | persp i l => simp only [if_true, hfull, h1, es]; rfl
    | ortho i l => simp only [if_true, hfull, h1, es]; rfl
  obtain ⟨it, e3, e4⟩ := unproject_batch gt (b := b) (by simp [hb, hv.rlen, hv.tlen, hv.plen, hndl])
    (by
      intro i h q hq
      have := full_w_ne hv hb hz i h q hq
      simp only [List.getElem_zipWith] at this ⊢
      simp only [ndMats, List.getElem_zipWith]
      rw [nd_w]
      exact this)
  unfold unproject
  rw [htr]
  have hVl : (viewOf (setRT kw c).R (setRT kw c).T b).length = c.n := by
    unfold viewOf; simp [hb, hv.rlen, hv.tlen]
  have hD : (withDepth (ndcOf kw c hw (projOf kw c b)) (viewOf (setRT kw c).R (setRT kw c).T b)).length
      = (setRT kw c).n := by
    show _ = c.n
    unfold withDepth ndcOf projOf
    simp [hVl, hv.plen, hndl]
  have hin := unprojInput_eq (kw := kw) (c := setRT kw c) hv.plen hv.pdet hD
  show (do
    let x ← unprojInput kw false (setRT kw c) _
    let i ← inverse (compose t0 [s])
    transformPoints i none x) = _
  rw [hin, e3]
  show transformPoints it none (.batch (List.zipWith (fun l P => mapZ (zOut c.params P) l) _ (projMats kw c))) = _
  have key : List.zipWith (fun l P => mapZ (zOut c.params P) l)
      (withDepth (ndcOf kw c hw (projOf kw c b)) (viewOf (setRT kw c).R (setRT kw c).T b)) (projMats kw c)
      = ndcOf kw c hw (projOf kw c b) := by
    have hr := rescaled hv hb hz
    have hql : (projOf kw c b).length = c.n := by unfold projOf; simp [hVl, hv.plen]
    unfold withDepth at hr ⊢
    have hlen : ∀ i (h1 : i < (projOf kw c b).length) (h2 : i < (viewOf (setRT kw c).R (setRT kw c).T b).length),
        (projOf kw c b)[i].length = (viewOf (setRT kw c).R (setRT kw c).T b)[i].length := by
      intro i h1 h2
      simp only [projOf, List.getElem_zipWith, List.length_map]
    generalize projOf kw c b = Q at *
    generalize viewOf (setRT kw c).R (setRT kw c).T b = V at *
    unfold ndcOf ndMats
    apply List.ext_getElem
    · simp [hVl, hql, hv.plen]
    · intro i g1 g2
      have hic : i < c.n := by simp [hql, hv.plen] at g2; exact g2
      have hri := List.getElem_of_eq hr (i := i) (by simp [hVl, hql, hv.plen, hic])
      simp only [List.getElem_zipWith, List.getElem_map, List.getElem_range] at hri ⊢
      have hll := hlen i (by omega) (by omega)
      generalize Q[i]'(by omega) = q at *
      generalize V[i]'(by omega) = v at *
      apply List.ext_getElem
      · simp [mapZ, hll]
      · intro j k1 k2
        have hj : j < q.length := by simpa using k2
        have hrj := List.getElem_of_eq hri (i := j) (by simp [mapZ, ← hll, hj])
        simp only [mapZ, List.getElem_map, List.getElem_zipWith] at hrj ⊢
        rw [ndMat_point]
        have hz' : zOut c.params ((projMats kw c)[i]'(by rw [hv.plen]; exact hic)) (v[j]'(by omega)).z
          = (q[j]'hj).z := by
          have := congrArg V3.z hrj
          simpa using this
        simp [hz']
  rw [key]
  have : ndcOf kw c hw (projOf kw c b) = List.zipWith (fun ps m => ps.map fun p => transformPoint none p m) b
      (List.zipWith (· * ·) (List.zipWith (· * ·) (List.zipWith M4.affine (setRT kw c).R (setRT kw c).T)
        (projMats kw c)) (ndMats kw c hw)) := by
    unfold ndcOf
    rw [projOf_eq]
    apply List.ext_getElem
    · simp
    · intro i h1 h2
      have hib : i < b.length := by simp at h1; omega
      simp only [List.getElem_zipWith, List.map_map]
      apply List.map_congr_left
      intro p hp
      simp only [Function.comp]
      have := full_w_ne hv hb hz i hib p hp
      simp only [List.getElem_zipWith] at this
      rw [transformPoint_mul _ _ _ this]
  rw [this]
  exact e4

/-! ### Camera centre and keyword arguments -/

/-- **C27 (camera centre).** The points returned by `get_camera_center` are mapped to the origin of view
space. -/
theorem cameraCenter_spec {kw : Kw K} {c : Cam K} (hr : (setRT kw c).R.length = (setRT kw c).T.length)
    (hd : ∀ r ∈ (setRT kw c).R, r.det ≠ 0) :
    ∃ cs, (cameraCenter kw c).2 = .ok cs ∧ cs.length = (setRT kw c).R.length ∧
      viewOf (setRT kw c).R (setRT kw c).T (cs.map fun p => [p]) = cs.map fun _ => [0] := by
  obtain ⟨w, h1, g1⟩ := worldToView_good hr.symm hd
  obtain ⟨it, h2, h3, h4⟩ := good_inverse g1
  refine ⟨((List.zipWith M4.affine (setRT kw c).R (setRT kw c).T).map (·⁻¹)).map M4.transl, ?_, by simp [hr], ?_⟩
  · unfold cameraCenter getWorldToView
    simp only [h1]
    show (do
      let i ← inverse w
      match getMatrix i with
      | none => .error .value
      | some ms => .ok (ms.map M4.transl)) = _
    rw [h2]
    show (match getMatrix it with
      | none => Except.error Err.value
      | some ms => Except.ok (ms.map M4.transl)) = _
    rw [h3]
  · generalize (setRT kw c).R = R at *
    generalize (setRT kw c).T = T at *
    unfold viewOf
    apply List.ext_getElem
    · simp [hr]
    · intro i e1 e2
      simp only [List.getElem_zipWith, List.getElem_map, List.getElem_zip, List.map_cons, List.map_nil,
        List.cons.injEq, and_true]
      have hi : i < (List.zipWith M4.affine R T).length := by simpa using e2
      have hu := h4 _ (List.getElem_mem hi)
      simp only [List.getElem_zipWith] at hu
      have hRi : R[i]'(by simp [hr] at hi ⊢; omega) ∈ R := List.getElem_mem _
      generalize R[i]'(by simp [hr] at hi ⊢; omega) = r at *
      generalize T[i]'(by simp [hr] at hi; omega) = t at *
      have hu' := mul_eq_one_comm.mp hu
      generalize (M4.affine r t)⁻¹ = m at hu hu'
      have e : ∀ i j, (m * M4.affine r t) i j = (1 : M4 K) i j := fun i j => by rw [hu']
      have e3 : ∀ i j, (M4.affine r t * m) i j = (1 : M4 K) i j := fun i j => by rw [hu]
      have m33 := e 3 3
      have q0 := e 3 0
      have q1 := e 3 1
      have q2 := e 3 2
      simp [Matrix.mul_apply, Fin.sum_univ_four, M4.affine] at m33 q0 q1 q2
      rw [m33] at q0 q1 q2
      ext <;> simp [M3.vecMul, M4.transl] <;> linarith

/-- **C26 (state).** Passing `R` or `T` to `transform_points` changes the object: later calls without keyword
arguments use them too; intrinsics and the image size given as keyword arguments are forgotten. -/
theorem kwargs_persist (kw : Kw K) (eps : Option K) (pts pts' : Pts K) (c : Cam K) :
    (transformPts noKw eps pts' (transformPts kw eps pts c).1).2
      = (transformPts { kw with kmat := none, params := none, imageSize := none } eps pts' c).2 := by
  unfold transformPts fullProjection
  simp only [noKw, projection, setRT, Option.getD_none, Option.none_or]
  rfl

/-- **C26 (defect).** FoVPerspectiveCameras: `unproject_points` with scaled depths does not depend on the
keyword arguments at all, although `transform_points` does. -/
theorem fovPersp_unproject_ignores (kw kw' : Kw K) (c : Cam K) {l : List (FovP K)} (hc : c.params = .fovPersp l)
    (world fromNdc : Bool) (xyd : Pts K) :
    unproject kw world true fromNdc xyd c = unproject kw' world true fromNdc xyd c := by
  have h1 : ∀ k k' : Kw K, unprojTransform k world fromNdc c = unprojTransform k' world fromNdc c := by
    intro k k'
    unfold unprojTransform
    rw [hc]
  have h2 : ∀ k : Kw K, (unprojTransform k world fromNdc c).1.params = .fovPersp l := by
    intro k
    unfold unprojTransform
    rw [hc]
    cases world
    · exact hc
    · exact hc
  unfold unproject
  rw [h1 kw kw']
  have h3 : ∀ k k'', unprojInput k true (unprojTransform k'' world fromNdc c).1 xyd = .ok xyd := by
    intro k k''
    unfold unprojInput
    rw [h2 k'']
    simp [fovScaled]
  rw [h3 kw kw', h3 kw' kw']

/-- **C26 (defect).** FoVOrthographicCameras cannot unproject an unbatched `(P, 3)` tensor with unscaled depths;
the other classes can. -/
theorem fovOrtho_unbatched (kw : Kw K) (c : Cam K) {l : List (FovO K)} (hc : c.params = .fovOrtho l)
    (world fromNdc : Bool) (xyd : List (V3 K)) :
    ∃ e, (unproject kw world false fromNdc (.single xyd) c).2 = .error e := by
  have hpar : (unprojTransform kw world fromNdc c).1.params = .fovOrtho l := by
    unfold unprojTransform
    rw [hc]
    cases world
    · exact hc
    · exact hc
  unfold unproject
  rcases (unprojTransform kw world fromNdc c).2 with e | t
  · exact ⟨e, rfl⟩
  · have hin : ∃ e, unprojInput kw false (unprojTransform kw world fromNdc c).1 (.single xyd) = .error e := by
      unfold unprojInput
      rw [hpar]
      simp only
      unfold fovScaled
      rw [if_neg (by simp)]
      rcases projection kw (unprojTransform kw world fromNdc c).1 with e | p
      · exact ⟨e, rfl⟩
      · show ∃ e, (match getMatrix p with
          | none => Except.error Err.value
          | some ms => scaleDepths false ms (.single xyd)) = .error e
        cases getMatrix p
        · exact ⟨_, rfl⟩
        · exact ⟨_, by simp only [scaleDepths]; rfl⟩
    obtain ⟨e, he⟩ := hin
    refine ⟨e, ?_⟩
    show (do
      let x ← unprojInput kw false (unprojTransform kw world fromNdc c).1 (.single xyd)
      let i ← inverse t
      transformPoints i none x) = _
    rw [he]
    rfl

end screen

/-! ### Examples -/

/-- Two cameras, defined in screen space, with different parameters and non-square images. -/
def exCam : Cam ℚ where
  n := 2
  R := [⟨1, 0, 0, 0, 1, 0, 0, 0, 1⟩, ⟨0, 1, 0, -1, 0, 0, 0, 0, 1⟩]
  T := [⟨0, 0, 5⟩, ⟨1, 2, 3⟩]
  kmat := none
  params := .persp false [⟨100, 120, 60, 40⟩, ⟨50, 50, 10, 20⟩]
  imageSize := some [(80, 120), (40, 30)]

theorem exCam_valid : Valid noKw exCam := by
  apply valid_of_params ⟨rfl, rfl⟩ rfl
  · show ∀ c ∈ _, _
    decide +kernel
  · rfl
  · rfl
  · rfl
  · show ∀ r ∈ _, _
    decide +kernel

example : ∃ w view xy, (getWorldToView noKw exCam).2 = .ok w
    ∧ transformPoints w none (.batch [[⟨1, 2, 3⟩], [⟨3, 2, 1⟩]]) = .ok (.batch view)
    ∧ (transformPts noKw none (.batch [[⟨1, 2, 3⟩], [⟨3, 2, 1⟩]]) exCam).2 = .ok (.batch xy)
    ∧ (unproject noKw true false false (.batch (withDepth xy view))
        (transformPts noKw none (.batch [[⟨1, 2, 3⟩], [⟨3, 2, 1⟩]]) exCam).1).2
      = .ok (.batch [[⟨1, 2, 3⟩], [⟨3, 2, 1⟩]]) :=
  unproject_world exCam_valid trivial rfl (fun _ => by decide +kernel)

-- camera 1: view (1, 2, 8): 60 - 100/8 = 47.5, 40 - 240/8 = 10
example : (transformPtsScreen noKw none true (.batch [[⟨1, 2, 3⟩], [⟨3, 2, 1⟩]]) exCam).2
    = .ok (.batch [[⟨95 / 2, 10, 1 / 8⟩], [⟨45 / 2, -85 / 2, 1 / 4⟩]]) := by
  rw [persp_screen exCam_valid rfl rfl rfl rfl rfl ⟨Or.inl rfl, by decide +kernel⟩ rfl (by decide +kernel)]
  decide +kernel

example : transformPoint none (⟨3 / 2, 1, 7⟩ : V3 ℚ) (screenMat true (80, 120)) = ⟨0, 0, 7⟩ := by decide +kernel

example : FovP.Ok (⟨1, 100, 1, 1 / 2⟩ : FovP ℚ) := by unfold FovP.Ok; decide +kernel
example : transformPoint none (⟨1, 1, 1⟩ : V3 ℚ) (fovPerspMat ⟨1, 100, 1, 1 / 2⟩).transpose = ⟨2, 2, 0⟩ := by
  decide +kernel
example : transformPoint none (⟨1, 1, 100⟩ : V3 ℚ) (fovPerspMat ⟨1, 100, 1, 1 / 2⟩).transpose
    = ⟨1 / 50, 1 / 50, 1⟩ := by decide +kernel

/-- The keyword `params` (a different field of view) is used for projecting but not for unprojecting: the
round trip with keyword arguments fails. -/
def exFov : Cam ℚ := ⟨1, [1], [⟨0, 0, 0⟩], none, .fovPersp [⟨1, 100, 1, 1⟩], none⟩
def exKw : Kw ℚ := { params := some (.fovPersp [⟨1, 100, 1, 2⟩]) }

theorem exFov_valid : Valid noKw exFov := by
  apply valid_of_params ⟨rfl, rfl⟩ rfl
  · show ∀ c ∈ _, _
    decide +kernel
  · rfl
  · rfl
  · rfl
  · show ∀ r ∈ _, _
    decide +kernel

theorem exFov_valid' : Valid exKw exFov := by
  have e : projMats exKw exFov = (calib (.fovPersp [(⟨1, 100, 1, 2⟩ : FovP ℚ)])).map Matrix.transpose := rfl
  have hok : Params.Ok (.fovPersp [(⟨1, 100, 1, 2⟩ : FovP ℚ)]) := by
    show ∀ c ∈ _, _
    decide +kernel
  refine ⟨rfl, rfl, rfl, ?_, ?_, ?_⟩
  · show ∀ r ∈ _, _
    decide +kernel
  · rw [e]; exact fun P h => (calib_form hok P h).1
  · rw [e]; exact fun P h => (calib_form hok P h).2

theorem exFov_proj : projOf exKw exFov [[⟨1, 1, 2⟩]] = projOf noKw exFov [[⟨1 / 2, 1 / 2, 2⟩]] := by
  decide +kernel

theorem fovPersp_roundtrip_fails : ∃ q, (transformPts exKw none (.batch [[⟨1, 1, 2⟩]]) exFov).2 = .ok q
    ∧ (unproject exKw true true false q (transformPts exKw none (.batch [[⟨1, 1, 2⟩]]) exFov).1).2
      = .ok (.batch [[⟨1 / 2, 1 / 2, 2⟩]]) := by
  obtain ⟨q, e1, e2⟩ := unproject_scaled exFov_valid (b := [[⟨1 / 2, 1 / 2, 2⟩]]) ⟨rfl, rfl⟩ rfl
    (fun _ => by decide +kernel) (Or.inl ⟨_, rfl⟩)
  refine ⟨q, ?_, ?_⟩
  · rw [← e1, transformPts_eq exFov_valid rfl, transformPts_eq exFov_valid' rfl, exFov_proj]
  · have s1 : ∀ k : Kw ℚ, k.R = none → k.T = none → ∀ p, (transformPts k none p exFov).1 = exFov := by
      rintro ⟨_, _, _, _, _⟩ rfl rfl p
      rfl
    rw [s1 _ rfl rfl] at e2 ⊢
    rw [fovPersp_unproject_ignores exKw noKw exFov rfl true false q]
    exact e2

end P3D.Camera
