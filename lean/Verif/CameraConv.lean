/-
Conversions between PyTorch3D, OpenCV and Pulsar cameras: `renderer/camera_conversions.py`
(`cameras_from_opencv_projection`, `opencv_from_cameras_projection`, `pulsar_from_opencv_projection`, `pulsar_from_cameras_projection`; the
public names in `utils/camera_conversions.py` call these).

A batch is a list.  Not modelled: distortion (the functions take none), the assertions on shapes and the warning about different focal lengths.
-/
import Verif.CameraScreen
import Verif.AxisAngleProps
import Mathlib.Tactic.IntervalCases

set_option linter.unusedSectionVars false

namespace P3D.CameraConv
open T3d Camera

/-- One OpenCV camera: `x_cam = R x + t`, calibration matrix. -/
structure Cv (K : Type*) where
  R : M3 K
  t : V3 K
  k : M3 K
  deriving DecidableEq

variable {K : Type*} [Field K] [LinearOrder K]

/-- The image sizes (height, width) broadcast to the batch. -/
def sizes (n : Nat) (hw : List (K × K)) : List (K × K) := (List.range n).map fun i => pick (0, 0) hw i

/-- camera_conversions.py:38-39, 85-86. -/
def scale (s : K × K) : K := min s.2 s.1 / 2

/-- Lines 27-28, 40-44: focal lengths and principal point in NDC, for one camera. -/
def ndcParams (c : Cv K) (s : K × K) : Sfm K :=
  ⟨c.k.m00 / scale s, c.k.m11 / scale s, -(c.k.m02 - s.2 / 2) / scale s, -(c.k.m12 - s.1 / 2) / scale s⟩

/-- Lines 49, 51 and 77, 79: transposition and reversal of the first two columns (of the PyTorch3D matrix). -/
def flipR (r : M3 K) : M3 K := ⟨-r.m00, -r.m10, r.m20, -r.m01, -r.m11, r.m21, -r.m02, -r.m12, r.m22⟩
def unflipR (r : M3 K) : M3 K := ⟨-r.m00, -r.m10, -r.m20, -r.m01, -r.m11, -r.m21, r.m02, r.m12, r.m22⟩

/-- Lines 50, 52 and 76. -/
def flipT (t : V3 K) : V3 K := ⟨-t.x, -t.y, t.z⟩

/-- `_cameras_from_opencv_projection`, lines 21-61. -/
def fromOpencv (cs : List (Cv K)) (hw : List (K × K)) : Cam K where
  n := cs.length
  R := cs.map fun c => flipR c.R
  T := cs.map fun c => flipT c.t
  kmat := none
  params := .persp true (List.zipWith ndcParams cs (sizes cs.length hw))
  imageSize := some (sizes cs.length hw)

/-- Lines 90-97: calibration matrix of one camera. -/
def cvMat (c : Sfm K) (s : K × K) : M3 K :=
  ⟨c.fx * scale s, 0, -c.px * scale s + s.2 / 2, 0, c.fy * scale s, -c.py * scale s + s.1 / 2, 0, 0, 1⟩

/-- The attributes `focal_length` and `principal_point`; `none` for the classes without them. -/
def sfmOf : Params K → Option (List (Sfm K))
  | .persp _ l => some l
  | .ortho _ l => some l
  | _ => none

/-- `_opencv_from_cameras_projection`, lines 64-98.  Neither `in_ndc` nor a matrix `K` of the camera is looked at. -/
def toOpencv (c : Cam K) (hw : List (K × K)) : Option (List (Cv K)) :=
  (sfmOf c.params).map fun l =>
    List.zipWith (fun (rt : M3 K × V3 K) (k : M3 K) => ⟨unflipR rt.1, flipT rt.2, k⟩) (c.R.zip c.T)
      (List.zipWith cvMat l (sizes c.n hw))

/-! ### Specification -/

/-- The projection of OpenCV (without distortion): `K (R x + t)`, dehomogenized. -/
def cvView (c : Cv K) (p : V3 K) : V3 K := M3.mulVec c.R p + c.t
def cvPixel (c : Cv K) (p : V3 K) : K × K :=
  let v := M3.mulVec c.k (cvView c p)
  (v.x / v.z, v.y / v.z)

/-- Calibration matrix without skew. -/
def NoSkew (k : M3 K) : Prop := k.m01 = 0 ∧ k.m10 = 0 ∧ k.m20 = 0 ∧ k.m21 = 0 ∧ k.m22 = 1

variable [IsStrictOrderedRing K]

theorem scale_eq (s : K × K) : scale s = half s := by unfold scale half; rw [min_comm]

theorem sizes_length (n : Nat) (hw : List (K × K)) : (sizes n hw).length = n := by simp [sizes]

theorem sizes_pos {n : Nat} {hw : List (K × K)} (h : SizesOk n hw) : ∀ s ∈ sizes n hw, 0 < s.1 ∧ 0 < s.2 := by
  intro s hs
  obtain ⟨i, hi, rfl⟩ := List.mem_map.mp hs
  exact h.pick (List.mem_range.mp hi)

theorem sizes_ok {n : Nat} {hw : List (K × K)} (h : SizesOk n hw) : SizesOk n (sizes n hw) := ⟨Or.inl (sizes_length _ _), sizes_pos h⟩

theorem sizes_self {n : Nat} {hw : List (K × K)} (h : hw.length = n) : sizes n hw = hw := by
  unfold sizes
  apply List.ext_getElem
  · simp [h]
  · intro i h1 h2
    simp [pick_lt _ _ _ h2]

theorem pick_sizes {n : Nat} {hw : List (K × K)} {i : Nat} (hi : i < n) : pick (0, 0) (sizes n hw) i = (sizes n hw)[i]'(by simp [sizes, hi]) :=
  pick_lt _ _ _ _

theorem flipR_det (r : M3 K) : (flipR r).det = r.det := by
  simp only [flipR, M3.det]; ring

theorem flip_view (c : Cv K) (p : V3 K) : M3.vecMul p (flipR c.R) + flipT c.t = ⟨-(cvView c p).x, -(cvView c p).y, (cvView c p).z⟩ := by
  ext <;> simp [cvView, flipR, flipT, M3.vecMul, M3.mulVec] <;> ring

/-- The screen coordinates of a perspective camera defined in NDC. -/
theorem persp_ndc_screen {c : Cam K} {l : List (Sfm K)} (hv : Valid noKw c) (hm : c.kmat = none) (hc : c.params = .persp true l)
    {hw : List (K × K)} (hi : c.imageSize = some hw) (hs : SizesOk c.n hw) {b : List (List (V3 K))} (hb : b.length = c.n)
    (hz : ∀ l ∈ viewOf c.R c.T b, ∀ v ∈ l, v.z ≠ 0) :
    (transformPtsScreen noKw none true (.batch b) c).2 = .ok (.batch (List.zipWith
      (fun ps (sh : Sfm K × (K × K)) => ps.map fun v => ⟨sh.2.2 / 2 - half sh.2 * (sh.1.fx * v.x / v.z + sh.1.px),
        sh.2.1 / 2 - half sh.2 * (sh.1.fy * v.y / v.z + sh.1.py), 1 / v.z⟩)
      (viewOf c.R c.T b) (l.zip ((List.range c.n).map fun i => pick (0, 0) hw i)))) := by
  have hn : c.params.inNdc = true := by rw [hc]; rfl
  have h1 : (transformPtsNdc noKw none (.batch b) c).2 = .ok (.batch (projOf noKw c b)) := by
    rw [← transformPts_eq hv hb]
    unfold transformPtsNdc toNdc transformPts
    simp only [hn, if_true]
    cases (fullProjection noKw c).2 <;> rfl
  obtain ⟨t, ht, gt⟩ := ndcToScreen_good hs true
  unfold transformPtsScreen
  simp only [h1]
  show (do
    let t ← ndcToScreen c.n true ((noKw : Kw K).imageSize.or c.imageSize)
    transformPoints t none (.batch (projOf noKw c b))) = _
  have hi' : (noKw : Kw K).imageSize.or c.imageSize = some hw := by rw [hi]; rfl
  rw [hi', ht]
  show transformPoints t none (.batch (projOf noKw c b)) = _
  have hP : projMats noKw c = l.map fun s => (perspMat s).transpose := by
    unfold projMats
    rw [hm, hc]
    simp [calib, noKw]
  have hpl := hv.plen
  rw [hP, List.length_map] at hpl
  have hVl : (viewOf c.R c.T b).length = c.n := by
    have := hv.rlen; have := hv.tlen
    unfold viewOf; simp_all [setRT, noKw]
  have hset : viewOf (setRT noKw c).R (setRT noKw c).T b = viewOf c.R c.T b := rfl
  rw [transformPoints_zip gt.2 (by simp [projOf, hset, hVl, hv.plen, screenMats])]
  congr 2
  unfold projOf screenMats
  rw [hset]
  generalize viewOf c.R c.T b = V at *
  rw [hP]
  apply List.ext_getElem
  · simp [hVl, hpl]
  · intro i g1 g2
    simp only [List.getElem_zipWith, List.getElem_map, List.getElem_range, List.map_map, List.getElem_zip]
    apply List.map_congr_left
    intro v hv'
    simp only [Function.comp]
    rw [persp_point _ (hz _ (List.getElem_mem _) v hv'), screenMat_point]

theorem fromOpencv_valid {cs : List (Cv K)} {hw : List (K × K)} (h : SizesOk cs.length hw) (hR : ∀ c ∈ cs, c.R.det ≠ 0)
    (hk : ∀ c ∈ cs, c.k.m00 ≠ 0 ∧ c.k.m11 ≠ 0) : Valid noKw (fromOpencv cs hw) := by
  apply valid_of_params ⟨rfl, rfl⟩ rfl
  · show ∀ c ∈ List.zipWith ndcParams cs (sizes cs.length hw), c.Ok
    intro c hc
    obtain ⟨i, hi, rfl⟩ := List.getElem_of_mem hc
    rw [List.getElem_zipWith]
    have hs := (half_pos (sizes_pos h _ (List.getElem_mem (l := sizes cs.length hw) (n := i) (by simp at hi; simp [sizes]; omega)))).ne'
    have := hk _ (List.getElem_mem (l := cs) (n := i) (by simp at hi; omega))
    unfold Sfm.Ok ndcParams
    rw [scale_eq]
    exact ⟨div_ne_zero this.1 hs, div_ne_zero this.2 hs⟩
  · show (List.map perspMat (List.zipWith ndcParams cs (sizes cs.length hw))).length = cs.length
    simp [sizes]
  · simp [setRT, noKw, fromOpencv]
  · simp [setRT, noKw, fromOpencv]
  · intro r hr
    simp only [setRT, noKw, fromOpencv, Option.getD_none, List.mem_map] at hr
    obtain ⟨c, hc, rfl⟩ := hr
    rw [flipR_det]
    exact hR c hc

/-- A converted camera projects every point to the pixel of the OpenCV camera (calibration matrices without skew), with the inverse depth as
third coordinate. -/
theorem fromOpencv_screen {cs : List (Cv K)} {hw : List (K × K)} (h : SizesOk cs.length hw) (hR : ∀ c ∈ cs, c.R.det ≠ 0)
    (hk : ∀ c ∈ cs, c.k.m00 ≠ 0 ∧ c.k.m11 ≠ 0) (hns : ∀ c ∈ cs, NoSkew c.k) {b : List (List (V3 K))} (hb : b.length = cs.length)
    (hz : ∀ i (hi : i < cs.length), ∀ p ∈ b[i]'(hb ▸ hi), (cvView cs[i] p).z ≠ 0) :
    (transformPtsScreen noKw none true (.batch b) (fromOpencv cs hw)).2 = .ok (.batch (List.zipWith
      (fun ps c => ps.map fun p => ⟨(cvPixel c p).1, (cvPixel c p).2, 1 / (cvView c p).z⟩) b cs)) := by
  have hview : viewOf (fromOpencv cs hw).R (fromOpencv cs hw).T b
      = List.zipWith (fun ps c => ps.map fun p => (⟨-(cvView c p).x, -(cvView c p).y, (cvView c p).z⟩ : V3 K)) b cs := by
    unfold viewOf fromOpencv
    apply List.ext_getElem
    · simp
    · intro i h1 h2
      simp only [List.getElem_zipWith, List.getElem_zip, List.getElem_map, flip_view]
  have hzv : ∀ l ∈ viewOf (fromOpencv cs hw).R (fromOpencv cs hw).T b, ∀ v ∈ l, v.z ≠ 0 := by
    rw [hview]
    intro l hl v hv
    obtain ⟨i, hi, rfl⟩ := List.getElem_of_mem hl
    rw [List.getElem_zipWith] at hv
    obtain ⟨p, hp, rfl⟩ := List.mem_map.mp hv
    exact hz i (by simp at hi; omega) p hp
  rw [persp_ndc_screen (fromOpencv_valid h hR hk) rfl rfl rfl (sizes_ok h) hb hzv, hview]
  congr 2
  apply List.ext_getElem
  · simp [sizes, hb, fromOpencv]
  · intro i h1 h2
    have hi : i < cs.length := by simp at h2; omega
    simp only [List.getElem_zipWith, List.getElem_zip, List.getElem_map, List.getElem_range, List.map_map]
    apply List.map_congr_left
    intro p hp
    simp only [Function.comp]
    rw [pick_sizes hi]
    have hs := (half_pos (sizes_pos h _ (List.getElem_mem (l := sizes cs.length hw) (n := i) (by simp [sizes, hi])))).ne'
    have hzz := hz i hi p hp
    obtain ⟨k1, k2, k3, k4, k5⟩ := hns _ (List.getElem_mem hi)
    unfold cvPixel ndcParams
    rw [scale_eq]
    generalize (sizes cs.length hw)[i]'_ = s at *
    generalize cs[i] = c at *
    generalize cvView c p = v at *
    simp only [M3.mulVec, k1, k2, k3, k4, k5, zero_mul, one_mul, add_zero, zero_add]
    ext <;> simp only <;> field_simp <;> ring

/-- Converting to PyTorch3D and back gives the same camera, its calibration matrix without skew. -/
theorem opencv_roundtrip {cs : List (Cv K)} {hw : List (K × K)} (h : SizesOk cs.length hw) :
    toOpencv (fromOpencv cs hw) hw
      = some (cs.map fun c => ⟨c.R, c.t, ⟨c.k.m00, 0, c.k.m02, 0, c.k.m11, c.k.m12, 0, 0, 1⟩⟩) := by
  unfold toOpencv fromOpencv sfmOf
  simp only [Option.map_some]
  congr 1
  apply List.ext_getElem
  · simp [sizes]
  · intro i h1 h2
    have hi : i < cs.length := by simpa using h2
    simp only [List.getElem_zipWith, List.getElem_zip, List.getElem_map]
    have hs := (half_pos (sizes_pos h _ (List.getElem_mem (l := sizes cs.length hw) (n := i) (by simp [sizes, hi])))).ne'
    unfold cvMat ndcParams
    rw [scale_eq]
    generalize (sizes cs.length hw)[i]'_ = s at *
    generalize cs[i] = c
    congr 1
    · ext <;> simp [flipR, unflipR]
    · ext <;> simp [flipT]
    · ext <;> simp only <;> field_simp <;> ring

/-- Converting a camera defined in NDC to OpenCV and back gives the same camera. -/
theorem camera_roundtrip {c : Cam K} {hw : List (K × K)} (h : SizesOk c.n hw) {l : List (Sfm K)} (hc : c.params = .persp true l)
    (hR : c.R.length = c.n) (hT : c.T.length = c.n) (hl : l.length = c.n) (hm : c.kmat = none) (hi : c.imageSize = some (sizes c.n hw)) :
    ∃ cs, toOpencv c hw = some cs ∧ fromOpencv cs hw = c := by
  refine ⟨_, by unfold toOpencv; rw [hc]; rfl, ?_⟩
  have hlen : (List.zipWith (fun (rt : M3 K × V3 K) (k : M3 K) => (⟨unflipR rt.1, flipT rt.2, k⟩ : Cv K)) (c.R.zip c.T)
      (List.zipWith cvMat l (sizes c.n hw))).length = c.n := by simp [hR, hT, hl, sizes]
  obtain ⟨n, R, T, kmat, params, im⟩ := c
  simp only at hc hR hT hl hm hi hlen h
  subst hc hm hi
  unfold fromOpencv
  simp only [hlen]
  congr 1
  · apply List.ext_getElem
    · rw [List.length_map, hlen, hR]
    · intro i h1 h2
      simp only [List.getElem_map, List.getElem_zipWith, List.getElem_zip]
      ext <;> simp [flipR, unflipR]
  · apply List.ext_getElem
    · rw [List.length_map, hlen, hT]
    · intro i h1 h2
      simp only [List.getElem_map, List.getElem_zipWith, List.getElem_zip]
      ext <;> simp [flipT]
  · congr 1
    apply List.ext_getElem
    · rw [List.length_zipWith, hlen, sizes_length, hl, min_self]
    · intro i h1 h2
      simp only [List.getElem_zipWith]
      have hs := (half_pos (sizes_pos h _ (List.getElem_mem (l := sizes n hw) (n := i) (by simp [sizes]; omega)))).ne'
      unfold cvMat ndcParams
      rw [scale_eq]
      generalize (sizes n hw)[i]'_ = s at *
      generalize l[i] = q
      obtain ⟨a, b, e, f⟩ := q
      simp only [Sfm.mk.injEq]
      refine ⟨?_, ?_, ?_, ?_⟩ <;> field_simp <;> ring

/-! ### Pulsar -/

/-- `_pulsar_from_opencv_projection`, lines 163-194: camera position, rotation in 6D form, focal length, sensor width, principal point
offsets; `near` is `znear - 1e-5`. -/
structure Pulsar where
  pos : V3 ℝ
  rot : V3 ℝ × V3 ℝ
  focal : ℝ
  sensor : ℝ
  cx : ℝ
  cy : ℝ

/-- The parameters computed. -/
noncomputable def toPulsar (near : ℝ) (c : Cv ℝ) (s : ℝ × ℝ) : Pulsar where
  pos := -M3.mulVec c.R.transpose c.t
  rot := Rot.matToRot6d c.R.transpose
  focal := near
  sensor := near / ((c.k.m00 + c.k.m11) / 2 / s.2)
  cx := -(c.k.m02 - s.2 / 2)
  cy := c.k.m12 - s.1 / 2

/-- The position is the centre of the camera, the rotation is recovered from its 6D form, and focal length over sensor width is the mean focal
length in units of the image width. -/
theorem pulsar_spec {near : ℝ} {c : Cv ℝ} {s : ℝ × ℝ} (hR : M3.IsRot c.R) (hn : near ≠ 0) (hf : c.k.m00 + c.k.m11 ≠ 0) (hw : s.2 ≠ 0) :
    cvView c (toPulsar near c s).pos = 0 ∧ Rot.rot6dToMat (toPulsar near c s).rot.1 (toPulsar near c s).rot.2 = c.R.transpose ∧
      (toPulsar near c s).focal / (toPulsar near c s).sensor * s.2 = (c.k.m00 + c.k.m11) / 2 := by
  refine ⟨?_, ?_, ?_⟩
  · obtain ⟨r00, r11, r22, r01, r02, r12, -⟩ := hR.eqs
    ext <;> simp [cvView, toPulsar, M3.mulVec, M3.transpose] <;> grind
  · exact Rot.rot6d_roundtrip hR.transpose
  · unfold toPulsar
    field_simp

/-! ### Limits -/

/-- The principal point offsets given to pulsar are those of the converted camera, in pixels; the second with opposite sign. -/
theorem pulsar_principal (near : ℝ) (c : Cv ℝ) {s : ℝ × ℝ} (hw : 0 < s.2) (hh : 0 < s.1) :
    (toPulsar near c s).cx = (ndcParams c s).px * scale s ∧ (toPulsar near c s).cy = -((ndcParams c s).py * scale s) := by
  have : scale s ≠ 0 := by
    unfold scale
    have := lt_min hw hh
    positivity
  unfold toPulsar ndcParams
  constructor <;> simp only <;> field_simp

/-- A screen space camera is converted as if it were defined in NDC: the OpenCV camera obtained from `exCam` (first camera: focal lengths 100,
120, principal point 60, 40, image 80 x 120) has focal length 4000 and sees the point (1, 2, 3) elsewhere. -/
theorem toOpencv_screen_witness : ∃ cs, toOpencv exCam [(80, 120), (40, 30)] = some cs ∧ (cs.map fun c => c.k.m00) = [4000, 750] ∧
    (transformPtsScreen noKw none true (.batch [[⟨1, 2, 3⟩], [⟨3, 2, 1⟩]]) exCam).2 = .ok (.batch [[⟨95 / 2, 10, 1 / 8⟩], [⟨45 / 2, -85 / 2, 1 / 4⟩]]) ∧
    ((cs.zip [⟨1, 2, 3⟩, ⟨3, 2, 1⟩]).map fun cp => cvPixel cp.1 cp.2) ≠ [(95 / 2, 10), (45 / 2, -85 / 2)] := by
  refine ⟨_, rfl, by decide +kernel, ?_, by decide +kernel⟩
  rw [persp_screen exCam_valid rfl rfl rfl rfl rfl ⟨Or.inl rfl, by decide +kernel⟩ rfl (by decide +kernel)]
  decide +kernel

/-- Two cameras, one rotated by a right angle about the z axis. -/
def exCv : List (Cv ℚ) := [⟨1, ⟨0, 0, 5⟩, ⟨100, 0, 60, 0, 120, 40, 0, 0, 1⟩⟩, ⟨⟨0, -1, 0, 1, 0, 0, 0, 0, 1⟩, ⟨1, 2, 3⟩, ⟨50, 0, 10, 0, 50, 20, 0, 0, 1⟩⟩]

example : (transformPtsScreen noKw none true (.batch [[⟨1, 2, 3⟩], [⟨3, 2, 1⟩]]) (fromOpencv exCv [(80, 120)])).2
    = .ok (.batch [[⟨145 / 2, 70, 1 / 8⟩], [⟨-5 / 2, 165 / 2, 1 / 4⟩]]) := by
  rw [fromOpencv_screen (by unfold SizesOk; decide +kernel) (by decide +kernel) (by decide +kernel) (by unfold NoSkew; decide +kernel) rfl
    (by
      intro i hi p hp
      have hi' : i < 2 := hi
      interval_cases i
      · rw [show p = ⟨1, 2, 3⟩ by simpa using hp]
        show (cvView (K := ℚ) ⟨⟨1, 0, 0, 0, 1, 0, 0, 0, 1⟩, ⟨0, 0, 5⟩, _⟩ _).z ≠ 0
        norm_num [cvView, M3.mulVec]
      · rw [show p = ⟨3, 2, 1⟩ by simpa using hp]
        show (cvView (K := ℚ) ⟨⟨0, -1, 0, 1, 0, 0, 0, 0, 1⟩, ⟨1, 2, 3⟩, _⟩ _).z ≠ 0
        norm_num [cvView, M3.mulVec])]
  decide +kernel

example : toOpencv (fromOpencv exCv [(80, 120)]) [(80, 120)] = some exCv := by
  rw [opencv_roundtrip (by unfold SizesOk; decide +kernel)]; decide +kernel

/-- A skewed calibration matrix is not supported: its entry is dropped. -/
theorem skew_dropped (r : M3 K) (t : V3 K) (k : M3 K) (x : K) (hw : List (K × K)) :
    fromOpencv [⟨r, t, { k with m01 := x }⟩] hw = fromOpencv [⟨r, t, k⟩] hw := rfl

example : cvPixel (K := ℚ) ⟨1, ⟨0, 0, 0⟩, ⟨100, 7, 60, 0, 120, 40, 0, 0, 1⟩⟩ ⟨1, 1, 1⟩ ≠ cvPixel ⟨1, ⟨0, 0, 0⟩, ⟨100, 0, 60, 0, 120, 40, 0, 0, 1⟩⟩ ⟨1, 1, 1⟩ := by
  decide +kernel

end P3D.CameraConv
