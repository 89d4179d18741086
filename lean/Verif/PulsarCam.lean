/-
Pulsar: from camera parameters to the rays of pixels.  `renderer/points/pulsar/renderer.py:376-530` (`_transform_cam_params`),
`csrc/pulsar/pytorch/camera.h`, `camera.cpp` (`cam_info_from_params`), the ray of a pixel (`renderer.render.device.h:60-76`) and
`renderer/points/pulsar/unified.py` (`PulsarPointsRenderer`: checks, intrinsics, extrinsics, radii, loop over clouds).

Not modelled: axis-angle parameters (`axis_angle_to_matrix` is modelled elsewhere, the code below it is the same), gradients, devices, conversion
to 32 bit integers beyond truncation.
-/
import Mathlib.Algebra.Order.Floor.Ring
import Mathlib.Analysis.SpecialFunctions.Trigonometric.Bounds
import Mathlib.Tactic.Linarith
import Mathlib.Tactic.FieldSimp
import Mathlib.Tactic.Ring
import Verif.PulsarDraw
import Verif.CameraConv

set_option linter.unusedSectionVars false

namespace P3D.PulsarCam

open V3 CameraConv

/-! ### The code -/

/-- `.to(torch.int32)`: towards zero. -/
noncomputable def trunc (x : ℝ) : Int := if 0 ≤ x then ⌊x⌋ else ⌈x⌉

/-- Results of `_transform_cam_params`. -/
structure Vecs where
  pos : V3 ℝ
  p00 : V3 ℝ
  vx : V3 ℝ
  vy : V3 ℝ
  focal : ℝ
  ox : Int
  oy : Int

/-- `_transform_cam_params` (renderer.py:376-530) for 13 parameters, with the rotation matrix already computed. -/
noncomputable def transformMat (orth rh first : Bool) (w h : Nat) (m : M3 ℝ) (p : Pulsar) : Vecs :=
  let size := p.sensor / w
  let sy := h * size
  let pos := if first then M3.mulVec m p.pos else p.pos
  let dx := M3.mulVec m ⟨1, 0, 0⟩
  let dy := M3.mulVec m ⟨0, -1, 0⟩
  let dz := if rh then (-1 : ℝ) • M3.mulVec m ⟨0, 0, 1⟩ else M3.mulVec m ⟨0, 0, 1⟩
  let center := if orth then pos else pos + p.focal • dz
  let luc := center - (p.sensor / 2) • dx - (sy / 2) • dy
  let vx := (p.sensor / w) • dx
  let vy := (sy / h) • dy
  ⟨pos, luc + (1 / 2 : ℝ) • vx + (1 / 2 : ℝ) • vy, vx, vy, p.focal, trunc p.cx, trunc p.cy⟩

/-- `_transform_cam_params` with the 6D rotation. -/
noncomputable def transformCam (orth rh first : Bool) (w h : Nat) (p : Pulsar) : Vecs :=
  transformMat orth rh first w h (Rot.rot6dToMat p.rot.1 p.rot.2) p

/-- `CamInfo`. -/
structure Info where
  eye : V3 ℝ
  p00 : V3 ℝ
  vx : V3 ℝ
  vy : V3 ℝ
  dz : V3 ℝ
  hps : ℝ
  f : ℝ
  apW : Nat
  apH : Nat
  left : Nat
  top : Nat

/-- `cam_info_from_params` with `fill_cam_vecs` (camera.cpp:15-65, camera.h:20-52); `none` is the exception about pixel sizes. -/
noncomputable def camInfo (eps : ℝ) (rh : Bool) (w h : Nat) (v : Vecs) : Option Info :=
  let c := cross v.vy v.vx
  let n := (1 / PulsarDraw.len c) • c
  let hps := 1 / 2 * PulsarDraw.len v.vx
  if PulsarDraw.len v.vy * (1 / 2) - hps > eps then none
  else some {
    eye := v.pos, p00 := v.p00 - (v.ox.natAbs : ℝ) • v.vx - (v.oy.natAbs : ℝ) • v.vy, vx := v.vx, vy := v.vy,
    dz := if rh then (-1 : ℝ) • n else n, hps := hps, f := v.focal, apW := w + 2 * v.ox.natAbs, apH := h + 2 * v.oy.natAbs,
    left := (max 0 (2 * v.ox)).toNat, top := (max 0 (2 * v.oy)).toNat }

/-- The ray of aperture coordinates (renderer.forward.device.h: `pixel_0_0_center - eye`; renderer.render.device.h:71-73). -/
def ray (c : Info) (x y : ℝ) : V3 ℝ := c.p00 - c.eye + x • c.vx + y • c.vy

/-- The ray of a pixel of the image: column `a`, row `b` (renderer.render.device.h:61-62, 384-391). -/
def filmRay (c : Info) (a b : Nat) : V3 ℝ := ray c ((a : ℝ) + c.left) ((b : ℝ) + c.top)

/-! ### Rotations -/

theorem col_eqs {m : M3 ℝ} (hm : M3.IsRot m) : normSq (M3.mulVec m ⟨1, 0, 0⟩) = 1 ∧ normSq (M3.mulVec m ⟨0, -1, 0⟩) = 1 ∧ normSq (M3.mulVec m ⟨0, 0, 1⟩) = 1 ∧
    dot (M3.mulVec m ⟨1, 0, 0⟩) (M3.mulVec m ⟨0, -1, 0⟩) = 0 ∧ dot (M3.mulVec m ⟨1, 0, 0⟩) (M3.mulVec m ⟨0, 0, 1⟩) = 0 ∧
    dot (M3.mulVec m ⟨0, -1, 0⟩) (M3.mulVec m ⟨0, 0, 1⟩) = 0 := by
  obtain ⟨r00, r11, r22, r01, r02, r12, -⟩ := hm.transpose.eqs
  simp only [M3.transpose] at r00 r11 r22 r01 r02 r12
  refine ⟨?_, ?_, ?_, ?_, ?_, ?_⟩ <;> simp [normSq, dot, M3.mulVec] <;> linarith

theorem cross_cols {m : M3 ℝ} (hm : M3.IsRot m) : cross (M3.mulVec m ⟨0, -1, 0⟩) (M3.mulVec m ⟨1, 0, 0⟩) = M3.mulVec m ⟨0, 0, 1⟩ := by
  obtain ⟨r00, r11, r22, r01, r02, r12, h⟩ := hm.eqs
  obtain ⟨c00, c11, c22, c01, c02, c12, h'⟩ := hm.transpose.eqs
  simp only [M3.transpose] at *
  ext <;> simp [cross, M3.mulVec] <;> grind

theorem trunc_err (x : ℝ) : |(trunc x : ℝ) - x| < 1 := by
  unfold trunc
  split
  · have h1 := Int.floor_le x
    have h2 := Int.lt_floor_add_one x
    rw [abs_lt]
    constructor <;> linarith
  · have h1 := Int.le_ceil x
    have h2 := Int.ceil_lt_add_one x
    rw [abs_lt]
    constructor <;> linarith

theorem trunc_int (n : Int) : trunc (n : ℝ) = n := by
  unfold trunc
  split <;> simp

/-- Border and magnitude of the offset together shift by the offset. -/
theorem border_shift (o : Int) : (((max 0 (2 * o)).toNat : ℕ) : ℝ) - (o.natAbs : ℝ) = o := by
  have h : (((max 0 (2 * o)).toNat : ℕ) : ℤ) - (o.natAbs : ℤ) = o := by omega
  exact_mod_cast h

/-- The film lies in the aperture. -/
theorem film_in_aperture {eps : ℝ} {rh : Bool} {w h : Nat} {v : Vecs} {c : Info} (hc : camInfo eps rh w h v = some c) : c.left + w ≤ c.apW ∧ c.top + h ≤ c.apH := by
  unfold camInfo at hc
  dsimp only at hc
  split at hc
  · exact absurd hc (by simp)
  · simp only [Option.some.injEq] at hc
    subst hc
    dsimp only
    omega

theorem len_smul (s : ℝ) (hs : 0 ≤ s) (v : V3 ℝ) (hv : normSq v = 1) : PulsarDraw.len (s • v) = s := by
  rw [PulsarDraw.len, normSq_smul, hv, mul_one, Real.sqrt_sq hs]

/-- The camera of a rotation: no exception, half a pixel is half of sensor over width, the viewing direction computed by the cross product is the third
axis (reversed in right-handed systems). -/
theorem camInfo_some {eps : ℝ} (he : 0 ≤ eps) (orth rh first : Bool) (w h : Nat) (hw : 0 < w) (hh : 0 < h) {m : M3 ℝ} (hm : M3.IsRot m) (p : Pulsar) (hs : 0 < p.sensor) :
    ∃ c, camInfo eps rh w h (transformMat orth rh first w h m p) = some c ∧ 2 * c.hps = p.sensor / w ∧ c.f = p.focal ∧
      c.dz = (if rh then (-1 : ℝ) • M3.mulVec m ⟨0, 0, 1⟩ else M3.mulVec m ⟨0, 0, 1⟩) ∧ c.eye = (transformMat orth rh first w h m p).pos ∧
      c.vx = (p.sensor / w) • M3.mulVec m ⟨1, 0, 0⟩ ∧ c.vy = (p.sensor / w) • M3.mulVec m ⟨0, -1, 0⟩ ∧
      c.apW = w + 2 * (trunc p.cx).natAbs ∧ c.apH = h + 2 * (trunc p.cy).natAbs ∧ c.left = (max 0 (2 * trunc p.cx)).toNat ∧ c.top = (max 0 (2 * trunc p.cy)).toNat ∧
      c.p00 = (transformMat orth rh first w h m p).p00 - ((trunc p.cx).natAbs : ℝ) • c.vx - ((trunc p.cy).natAbs : ℝ) • c.vy := by
  have hw' : (0 : ℝ) < w := by exact_mod_cast hw
  have hh' : (0 : ℝ) < h := by exact_mod_cast hh
  obtain ⟨n1, n2, n3, -⟩ := col_eqs hm
  have hps : 0 < p.sensor / w := div_pos hs hw'
  have evx : (transformMat orth rh first w h m p).vx = (p.sensor / w) • M3.mulVec m ⟨1, 0, 0⟩ := rfl
  have evy : (transformMat orth rh first w h m p).vy = (p.sensor / w) • M3.mulVec m ⟨0, -1, 0⟩ := by
    show (h * (p.sensor / w) / h) • M3.mulVec m ⟨0, -1, 0⟩ = _
    rw [mul_div_cancel_left₀ _ hh'.ne']
  have lx : PulsarDraw.len (transformMat orth rh first w h m p).vx = p.sensor / w := by rw [evx, len_smul _ hps.le _ n1]
  have ly : PulsarDraw.len (transformMat orth rh first w h m p).vy = p.sensor / w := by rw [evy, len_smul _ hps.le _ n2]
  have hn : (1 / PulsarDraw.len (cross (transformMat orth rh first w h m p).vy (transformMat orth rh first w h m p).vx)) •
      cross (transformMat orth rh first w h m p).vy (transformMat orth rh first w h m p).vx = M3.mulVec m ⟨0, 0, 1⟩ := by
    rw [evx, evy, cross_smul, cross_cols hm, len_smul _ (mul_pos hps hps).le _ n3]
    have := (mul_pos hps hps).ne'
    generalize p.sensor / w * (p.sensor / w) = q at *
    ext <;> simp <;> field_simp
  have hcond : ¬ (PulsarDraw.len (transformMat orth rh first w h m p).vy * (1 / 2) - 1 / 2 * PulsarDraw.len (transformMat orth rh first w h m p).vx > eps) := by
    rw [lx, ly]
    linarith
  refine ⟨_, if_neg hcond, ?_, rfl, ?_, rfl, evx, evy, rfl, rfl, rfl, rfl, rfl⟩
  · dsimp only
    rw [lx]
    ring
  · dsimp only
    rw [hn]

/-- In the axes of the camera the ray of aperture coordinates is that of `PulsarDraw.pixelDir` (left-handed, perspective). -/
theorem ray_axes {eps : ℝ} (he : 0 ≤ eps) (first : Bool) (w h : Nat) (hw : 0 < w) (hh : 0 < h) {m : M3 ℝ} (hm : M3.IsRot m) (p : Pulsar) (hs : 0 < p.sensor)
    (x y : ℝ) (lo hi : ℝ) : ∃ c, camInfo eps false w h (transformMat false false first w h m p) = some c ∧
      let d := PulsarDraw.pixelDir ⟨c.hps, c.f, lo, hi, c.apW, c.apH⟩ x y
      ray c x y = d.x • M3.mulVec m ⟨1, 0, 0⟩ + d.y • M3.mulVec m ⟨0, -1, 0⟩ + d.z • c.dz := by
  obtain ⟨c, hc, h1, h2, h3, h4, h5, h6, h7, h8, -, -, h9⟩ := camInfo_some he false false first w h hw hh hm p hs
  refine ⟨c, hc, ?_⟩
  have hw' : (w : ℝ) ≠ 0 := by exact_mod_cast hw.ne'
  have hh' : (h : ℝ) ≠ 0 := by exact_mod_cast hh.ne'
  have e00 : (transformMat false false first w h m p).p00 - (transformMat false false first w h m p).pos =
      p.focal • M3.mulVec m ⟨0, 0, 1⟩ - (p.sensor / 2) • M3.mulVec m ⟨1, 0, 0⟩ - (h * (p.sensor / w) / 2) • M3.mulVec m ⟨0, -1, 0⟩ +
        (1 / 2 * (p.sensor / w)) • M3.mulVec m ⟨1, 0, 0⟩ + (1 / 2 * (h * (p.sensor / w) / h)) • M3.mulVec m ⟨0, -1, 0⟩ := by
    ext <;> simp [transformMat] <;> ring
  have e1 : ray c x y = ((transformMat false false first w h m p).p00 - (transformMat false false first w h m p).pos) +
      (x - ((trunc p.cx).natAbs : ℝ)) • c.vx + (y - ((trunc p.cy).natAbs : ℝ)) • c.vy := by
    rw [ray, h9, h4]
    ext <;> simp <;> ring
  rw [e1, e00, h5, h6]
  simp only [PulsarDraw.pixelDir, h1, h2, h3, h7, h8, Bool.false_eq_true, if_false]
  generalize M3.mulVec m ⟨1, 0, 0⟩ = X
  generalize M3.mulVec m ⟨0, -1, 0⟩ = Y
  generalize M3.mulVec m ⟨0, 0, 1⟩ = Z
  push_cast
  ext <;> simp <;> field_simp <;> ring

/-- The ray of a pixel of the image: principal point offsets and borders together shift it by the truncated offsets. -/
theorem filmRay_axes {eps : ℝ} (he : 0 ≤ eps) (first : Bool) (w h : Nat) (hw : 0 < w) (hh : 0 < h) {m : M3 ℝ} (hm : M3.IsRot m) (p : Pulsar) (hs : 0 < p.sensor)
    (a b : Nat) : ∃ c, camInfo eps false w h (transformMat false false first w h m p) = some c ∧
      filmRay c a b = ((a + 1 / 2 - w / 2 + trunc p.cx) * (p.sensor / w)) • M3.mulVec m ⟨1, 0, 0⟩ +
        ((b + 1 / 2 - h / 2 + trunc p.cy) * (p.sensor / w)) • M3.mulVec m ⟨0, -1, 0⟩ + p.focal • M3.mulVec m ⟨0, 0, 1⟩ := by
  obtain ⟨c, hc, h1, h2, h3, h4, h5, h6, h7, h8, hl, ht, h9⟩ := camInfo_some he false false first w h hw hh hm p hs
  obtain ⟨c', hc', hr⟩ := ray_axes he first w h hw hh hm p hs ((a : ℝ) + c.left) ((b : ℝ) + c.top) 0 1
  rw [hc, Option.some.injEq] at hc'
  subst hc'
  refine ⟨c, hc, ?_⟩
  have bx := border_shift (trunc p.cx)
  have by' := border_shift (trunc p.cy)
  rw [filmRay, hr]
  simp only [PulsarDraw.pixelDir, h1, h2, h3, h7, h8, Bool.false_eq_true, if_false, hl, ht]
  push_cast
  have q1 : (a : ℝ) + ((max 0 (2 * trunc p.cx)).toNat : ℝ) - ((w : ℝ) + 2 * ((trunc p.cx).natAbs : ℝ) - 1) / 2 = a + 1 / 2 - w / 2 + trunc p.cx := by linarith
  have q2 : (b : ℝ) + ((max 0 (2 * trunc p.cy)).toNat : ℝ) - ((h : ℝ) + 2 * ((trunc p.cy).natAbs : ℝ) - 1) / 2 = b + 1 / 2 - h / 2 + trunc p.cy := by linarith
  rw [q1, q2]

/-! ### OpenCV cameras -/

/-- The axes of the converted camera. -/
theorem cv_axes {c : Cv ℝ} (hR : M3.IsRot c.R) (pos : V3 ℝ) (h0 : cvView c pos = 0) (x y z s : ℝ) :
    cvView c (pos + s • (x • M3.mulVec c.R.transpose ⟨1, 0, 0⟩ + y • M3.mulVec c.R.transpose ⟨0, -1, 0⟩ + z • M3.mulVec c.R.transpose ⟨0, 0, 1⟩)) = ⟨s * x, -(s * y), s * z⟩ := by
  obtain ⟨r00, r11, r22, r01, r02, r12, -⟩ := hR.eqs
  have e : cvView c (pos + s • (x • M3.mulVec c.R.transpose ⟨1, 0, 0⟩ + y • M3.mulVec c.R.transpose ⟨0, -1, 0⟩ + z • M3.mulVec c.R.transpose ⟨0, 0, 1⟩)) =
      cvView c pos + s • M3.mulVec c.R (x • M3.mulVec c.R.transpose ⟨1, 0, 0⟩ + y • M3.mulVec c.R.transpose ⟨0, -1, 0⟩ + z • M3.mulVec c.R.transpose ⟨0, 0, 1⟩) := by
    ext <;> simp [cvView, M3.mulVec] <;> ring
  rw [e, h0]
  ext <;> simp [M3.mulVec, M3.transpose] <;> grind

/-- A camera converted from OpenCV (equal focal lengths, no skew): pixel (column `a`, row `b`) shows the ray of the OpenCV pixel with centre
`(a + 1/2, h - 1 - b + 1/2)`, so the image is upside down, up to the parts of the principal point lost by truncation, less than a pixel each. -/
theorem opencv_pixel {eps near : ℝ} (he : 0 ≤ eps) (hn : 0 < near) (w h : Nat) (hw : 0 < w) (hh : 0 < h) {c : Cv ℝ} (hR : M3.IsRot c.R) (hk : NoSkew c.k)
    (hf : c.k.m00 = c.k.m11) (hf0 : 0 < c.k.m00) (a b : Nat) (s : ℝ) (hs : 0 < s) :
    ∃ i, camInfo eps false w h (transformCam false false false w h (toPulsar near c (h, w))) = some i ∧
      ∃ dx dy : ℝ, |dx| < 1 ∧ |dy| < 1 ∧ cvPixel c (i.eye + s • filmRay i a b) = (a + 1 / 2 + dx, h - 1 - b + 1 / 2 + dy) ∧
        ((∃ n : Int, c.k.m02 - (w : ℝ) / 2 = n) → dx = 0) ∧ ((∃ n : Int, c.k.m12 - (h : ℝ) / 2 = n) → dy = 0) := by
  have hw' : (0 : ℝ) < w := by exact_mod_cast hw
  obtain ⟨v1, v2, v3⟩ := pulsar_spec (near := near) (s := ((h : ℝ), (w : ℝ))) hR hn.ne' (by rw [← hf]; positivity) hw'.ne'
  have hsens : (toPulsar near c ((h : ℝ), (w : ℝ))).sensor = near * w / c.k.m00 := by
    simp only [toPulsar, ← hf]
    field_simp
    ring
  have hs0 : 0 < (toPulsar near c ((h : ℝ), (w : ℝ))).sensor := by
    rw [hsens]
    positivity
  unfold transformCam
  rw [v2]
  obtain ⟨i, hi, hfr⟩ := filmRay_axes he false w h hw hh hR.transpose (toPulsar near c ((h : ℝ), (w : ℝ))) hs0 a b
  obtain ⟨i', hi', -, -, -, heye, -⟩ := camInfo_some he false false false w h hw hh hR.transpose (toPulsar near c ((h : ℝ), (w : ℝ))) hs0
  rw [hi, Option.some.injEq] at hi'
  subst hi'
  have heye' : i.eye = (toPulsar near c ((h : ℝ), (w : ℝ))).pos := heye
  refine ⟨i, hi, (trunc (toPulsar near c ((h : ℝ), (w : ℝ))).cx : ℝ) - (toPulsar near c ((h : ℝ), (w : ℝ))).cx,
    (toPulsar near c ((h : ℝ), (w : ℝ))).cy - (trunc (toPulsar near c ((h : ℝ), (w : ℝ))).cy : ℝ), trunc_err _, ?_, ?_, ?_, ?_⟩
  · rw [abs_sub_comm]
    exact trunc_err _
  · rw [heye', hfr]
    simp only [cvPixel]
    rw [cv_axes hR _ v1]
    have hfoc : (toPulsar near c ((h : ℝ), (w : ℝ))).focal = near := rfl
    rw [hfoc, hsens]
    have e1 : (toPulsar near c ((h : ℝ), (w : ℝ))).cx = -(c.k.m02 - w / 2) := rfl
    have e2 : (toPulsar near c ((h : ℝ), (w : ℝ))).cy = c.k.m12 - h / 2 := rfl
    generalize (trunc (toPulsar near c ((h : ℝ), (w : ℝ))).cx : ℝ) = tx
    generalize (trunc (toPulsar near c ((h : ℝ), (w : ℝ))).cy : ℝ) = ty
    rw [e1, e2]
    obtain ⟨k01, k10, k20, k21, k22⟩ := hk
    simp only [M3.mulVec, k01, k10, k20, k21, k22, ← hf, Prod.mk.injEq]
    constructor <;> field_simp <;> ring
  · rintro ⟨n, hn'⟩
    have e1 : (toPulsar near c ((h : ℝ), (w : ℝ))).cx = ((-n : Int) : ℝ) := by
      show -(c.k.m02 - (w : ℝ) / 2) = _
      rw [hn']
      push_cast
      rfl
    rw [e1, trunc_int, sub_self]
  · rintro ⟨n, hn'⟩
    have e2 : (toPulsar near c ((h : ℝ), (w : ℝ))).cy = (n : ℝ) := hn'
    rw [e2, trunc_int, sub_self]

/-! ### The unified interface -/

/-- `_extract_intrinsics` for `PerspectiveCameras` (unified.py:300-349) with two focal lengths: `none` is the error about focal lengths. -/
noncomputable def perspIntrinsics (w h : Nat) (znear : ℝ) (c : Camera.Sfm ℝ) : Option (ℝ × ℝ × ℝ × ℝ) :=
  if c.fx * w - c.fy * h > 1 / 100000 then none
  else some (znear - 1 / 1000000, (znear - 1 / 1000000) / c.fx * 2, c.px * (1 / 2) * w, c.py * (1 / 2) * h)

/-- `_extract_extrinsics` (unified.py:364-392): the OpenCV camera of R and T. -/
noncomputable def cvOf (r : M3 ℝ) (t : V3 ℝ) (s : ℝ × ℝ) : Cv ℝ := ⟨unflipR r, flipT t, cvMat ⟨1, 1, 0, 0⟩ s⟩

/-- The parameters put together (unified.py:480-495), perspective cameras. -/
noncomputable def unified (w h : Nat) (znear : ℝ) (r : M3 ℝ) (t : V3 ℝ) (c : Camera.Sfm ℝ) : Option Pulsar :=
  (perspIntrinsics w h znear c).map fun q =>
    let e := toPulsar (1 / 10 - 1 / 100000) (cvOf r t (h, w)) (h, w)
    ⟨e.pos, e.rot, q.1, q.2.1, q.2.2.1, q.2.2.2⟩

/-- The screen coordinates of PyTorch3D's perspective camera (what `transform_points_screen` computes, `CameraConv.persp_ndc_screen`). -/
noncomputable def screen (w h : ℝ) (r : M3 ℝ) (t : V3 ℝ) (c : Camera.Sfm ℝ) (p : V3 ℝ) : ℝ × ℝ :=
  let v := M3.vecMul p r + t
  let s := min h w / 2
  (w / 2 - s * (c.fx * v.x / v.z + c.px), h / 2 - s * (c.fy * v.y / v.z + c.py))

theorem unflip_rot {r : M3 ℝ} (hr : M3.IsRot r) : M3.IsRot (unflipR r) := by
  obtain ⟨r00, r11, r22, r01, r02, r12, h⟩ := hr.transpose.eqs
  have hd := hr.det
  simp only [M3.transpose] at *
  refine ⟨?_, ?_⟩
  · ext <;> simp [unflipR, M3.mul_def, M3.transpose] <;> linarith
  · simp only [unflipR, M3.det] at hd ⊢
    linarith

theorem view_flip (r : M3 ℝ) (t : V3 ℝ) (s : ℝ × ℝ) (p : V3 ℝ) : M3.vecMul p r + t = ⟨-(cvView (cvOf r t s) p).x, -(cvView (cvOf r t s) p).y, (cvView (cvOf r t s) p).z⟩ := by
  ext <;> simp [cvView, cvOf, unflipR, flipT, M3.vecMul, M3.mulVec] <;> ring

/-- Equal focal lengths are accepted only if the image is not wider than high (up to 1e-5). -/
theorem focal_check (w h : Nat) (znear f px py : ℝ) : (perspIntrinsics w h znear ⟨f, f, px, py⟩).isSome ↔ f * ((w : ℝ) - h) ≤ 1 / 100000 := by
  unfold perspIntrinsics
  split
  · rename_i hc
    simp only [Option.isSome_none, Bool.false_eq_true, false_iff, not_le]
    linarith
  · rename_i hc
    simp only [Option.isSome_some, true_iff]
    linarith

/-- The pixel in column `a` and row `b` of the final image (after the flip) of the unified interface, equal focal lengths, image not wider than high, principal
point offsets of whole pixels: the points on its ray have the screen coordinates of the centre of the pixel, except that the offset of the principal point in y is
taken with the wrong sign: the row is off by `py * (h + w) / 2`. -/
theorem unified_pixel {eps : ℝ} (he : 0 ≤ eps) (w h : Nat) (hw : 0 < w) (hwh : w ≤ h) {r : M3 ℝ} (hr : M3.IsRot r) (t : V3 ℝ) (znear : ℝ)
    (hz : 1 / 1000000 < znear) (f px py : ℝ) (hf : 0 < f) (nx ny : Int) (hnx : px * (1 / 2) * w = nx) (hny : py * (1 / 2) * h = ny) (a b : Nat) (hb : b < h) (s : ℝ) (hs : 0 < s) :
    ∃ p i, unified w h znear r t ⟨f, f, px, py⟩ = some p ∧ camInfo eps false w h (transformCam false false false w h p) = some i ∧
      screen w h r t ⟨f, f, px, py⟩ (i.eye + s • filmRay i a (h - 1 - b)) = ((a : ℝ) + 1 / 2, (b : ℝ) + 1 / 2 - py * (h + w) / 2) := by
  have hw' : (0 : ℝ) < w := by exact_mod_cast hw
  have hh : 0 < h := by omega
  have hwh' : (w : ℝ) ≤ h := by exact_mod_cast hwh
  have hR := unflip_rot hr
  have hk : 0 < (cvOf r t (h, w)).k.m00 := by
    simp only [cvOf, cvMat, scale, one_mul]
    rw [min_eq_left hwh']
    linarith
  have hkk : (cvOf r t ((h : ℝ), (w : ℝ))).k.m00 = (cvOf r t ((h : ℝ), (w : ℝ))).k.m11 := by simp [cvOf, cvMat]
  obtain ⟨v1, v2, -⟩ := pulsar_spec (near := 1 / 10 - 1 / 100000) (c := cvOf r t (h, w)) (s := ((h : ℝ), (w : ℝ))) hR (by norm_num) (by rw [← hkk]; positivity) hw'.ne'
  have hacc : ¬ (f * w - f * h > 1 / 100000) := by
    have : f * w ≤ f * h := mul_le_mul_of_nonneg_left hwh' hf.le
    linarith
  have hn : 0 < znear - 1 / 1000000 := by linarith
  have hu : unified w h znear r t ⟨f, f, px, py⟩ = some ⟨(toPulsar (1 / 10 - 1 / 100000) (cvOf r t (h, w)) (h, w)).pos, (toPulsar (1 / 10 - 1 / 100000) (cvOf r t (h, w)) (h, w)).rot,
      znear - 1 / 1000000, (znear - 1 / 1000000) / f * 2, px * (1 / 2) * w, py * (1 / 2) * h⟩ := by
    simp only [unified, perspIntrinsics, if_neg hacc, Option.map_some]
  generalize hp : (⟨(toPulsar (1 / 10 - 1 / 100000) (cvOf r t (h, w)) (h, w)).pos, (toPulsar (1 / 10 - 1 / 100000) (cvOf r t (h, w)) (h, w)).rot,
      znear - 1 / 1000000, (znear - 1 / 1000000) / f * 2, px * (1 / 2) * w, py * (1 / 2) * h⟩ : Pulsar) = p at hu
  have hsens : p.sensor = (znear - 1 / 1000000) / f * 2 := by rw [← hp]
  have hs0 : 0 < p.sensor := by
    rw [hsens]
    positivity
  have hm : Rot.rot6dToMat p.rot.1 p.rot.2 = (cvOf r t (h, w)).R.transpose := by
    rw [← hp]
    exact v2
  obtain ⟨i, hi, hfr⟩ := filmRay_axes he false w h hw hh hR.transpose p hs0 a (h - 1 - b)
  obtain ⟨i', hi', -, -, -, heye, -⟩ := camInfo_some he false false false w h hw hh hR.transpose p hs0
  rw [hi, Option.some.injEq] at hi'
  subst hi'
  refine ⟨p, i, hu, ?_, ?_⟩
  · unfold transformCam
    rw [hm]
    exact hi
  · have heye' : i.eye = (toPulsar (1 / 10 - 1 / 100000) (cvOf r t (h, w)) (h, w)).pos := by
      rw [heye]
      show p.pos = _
      rw [← hp]
    have ecx : p.cx = nx := by rw [← hp]; exact hnx
    have ecy : p.cy = ny := by rw [← hp]; exact hny
    have efo : p.focal = znear - 1 / 1000000 := by rw [← hp]
    simp only [screen]
    rw [view_flip r t ((h : ℝ), (w : ℝ)), heye', hfr]
    have hax := cv_axes (c := cvOf r t (h, w)) hR _ v1 ((a + 1 / 2 - w / 2 + trunc p.cx) * (p.sensor / w)) ((((h - 1 - b : ℕ) : ℝ) + 1 / 2 - h / 2 + trunc p.cy) * (p.sensor / w)) p.focal s
    have hRe : (cvOf r t ((h : ℝ), (w : ℝ))).R = unflipR r := rfl
    rw [hRe] at hax
    rw [hax, ecx, ecy, trunc_int, trunc_int, hsens, efo, ← hnx, ← hny, min_eq_right hwh', show h - 1 - b = h - (1 + b) by omega, Nat.cast_sub (by omega)]
    generalize znear - 1 / 1000000 = n at *
    push_cast
    have hw0 := hw'.ne'
    simp only [Prod.mk.injEq]
    constructor <;> field_simp <;> ring

/-- The radius given to pulsar for a point at distance `d` (unified.py:394-437, perspective): `half` for field of view cameras. -/
noncomputable def vertRad (fov : Bool) (raster focal d : ℝ) : ℝ := if fov then raster / focal * d / 2 else raster / focal * d

/-- The radius on the image in NDC, at the centre: radius over distance, times focal length over half of the sensor. -/
noncomputable def ndcRad (rad d focal sensor : ℝ) : ℝ := rad / d * (focal / (sensor / 2))

/-- The size of points depends on `znear`: the radius on the image is the one asked for only if the virtual focal length `znear - 1e-6` equals the focal length of the
camera. -/
theorem radius_persp (raster f d znear : ℝ) (hd : 0 < d) (hz : 1 / 1000000 < znear) (hf : 0 < f) (hr : raster ≠ 0) :
    ndcRad (vertRad false raster (znear - 1 / 1000000) d) d (znear - 1 / 1000000) ((znear - 1 / 1000000) / f * 2) = raster * f / (znear - 1 / 1000000) ∧
      (ndcRad (vertRad false raster (znear - 1 / 1000000) d) d (znear - 1 / 1000000) ((znear - 1 / 1000000) / f * 2) = raster ↔ znear = f + 1 / 1000000) := by
  have hn : 0 < znear - 1 / 1000000 := by linarith
  have e : ndcRad (vertRad false raster (znear - 1 / 1000000) d) d (znear - 1 / 1000000) ((znear - 1 / 1000000) / f * 2) = raster * f / (znear - 1 / 1000000) := by
    simp only [ndcRad, vertRad, Bool.false_eq_true, if_false]
    generalize znear - 1 / 1000000 = n at *
    field_simp
  refine ⟨e, ?_⟩
  rw [e, div_eq_iff hn.ne']
  constructor
  · intro h
    have := mul_left_cancel₀ hr h
    linarith
  · intro h
    rw [h]
    ring

/-- Field of view cameras: with the sensor of line 282. -/
theorem radius_fov (raster fov d focal : ℝ) (hd : 0 < d) (hf : 0 < focal) (ht : 0 < Real.tan (fov / 2)) :
    ndcRad (vertRad true raster focal d) d focal (Real.tan (fov / 2) * 2 * focal) = raster / (2 * focal * Real.tan (fov / 2)) := by
  simp only [ndcRad, vertRad, if_true]
  field_simp

/-- The sensor of a field of view camera is that of a perspective camera with focal length `1 / tan (fov / 2)`: the angle spans the width of the image. -/
theorem fov_persp (fov focal : ℝ) : Real.tan (fov / 2) * 2 * focal = focal / (1 / Real.tan (fov / 2)) * 2 := by
  rw [div_div_eq_mul_div]
  ring

/-- The field of view (lines 277-282): `afov *= pi / 180` works in place on an entry of the tensor of the camera; the result is the sensor width and the tensor. -/
noncomputable def fovSensor (degrees : Bool) (fovs : List ℝ) (i : Nat) (focal : ℝ) : Option (ℝ × List ℝ) :=
  fovs[i]?.map fun x =>
    let a := if degrees then x * (Real.pi / 180) else x
    (Real.tan (a / 2) * 2 * focal, fovs.set i a)

/-- The first rendering has the right field of view; the second one converts the already converted angle. -/
theorem fov_twice (fovs : List ℝ) (i : Nat) (focal x : ℝ) (hx : fovs[i]? = some x) :
    ∃ l s, fovSensor true fovs i focal = some (Real.tan (x * (Real.pi / 180) / 2) * 2 * focal, l) ∧
      fovSensor true l i focal = some (Real.tan (x * (Real.pi / 180) * (Real.pi / 180) / 2) * 2 * focal, s) := by
  have hi : i < fovs.length := by
    by_contra hcon
    rw [List.getElem?_eq_none (by omega)] at hx
    cases hx
  refine ⟨fovs.set i (x * (Real.pi / 180)), (fovs.set i (x * (Real.pi / 180))).set i (x * (Real.pi / 180) * (Real.pi / 180)), ?_, ?_⟩
  · simp only [fovSensor, hx, Option.map_some, if_true]
  · simp only [fovSensor, List.getElem?_set_self hi, Option.map_some, if_true]

/-- So a camera of 60 degrees has a sensor less than a fiftieth as wide in the second rendering. -/
theorem fov_shrinks (focal : ℝ) (hf : 0 < focal) : ∃ s1 l s2 l', fovSensor true [60] 0 focal = some (s1, l) ∧ fovSensor true l 0 focal = some (s2, l') ∧ 50 * s2 < s1 := by
  obtain ⟨l, s, h1, h2⟩ := fov_twice [60] 0 focal 60 rfl
  refine ⟨_, l, _, s, h1, h2, ?_⟩
  have hpi := Real.pi_pos
  have hpi3 := Real.pi_gt_three
  have hpi4 := Real.pi_lt_d2
  have e1 : (60 : ℝ) * (Real.pi / 180) / 2 = Real.pi / 6 := by ring
  have e2 : (60 : ℝ) * (Real.pi / 180) * (Real.pi / 180) / 2 = Real.pi ^ 2 / 1080 := by ring
  rw [e1, e2, Real.tan_pi_div_six]
  have hx0 : 0 < Real.pi ^ 2 / 1080 := by positivity
  have hx1 : Real.pi ^ 2 / 1080 ≤ 1 / 100 := by nlinarith
  have hx2 : Real.pi ^ 2 / 1080 < Real.pi / 2 := by linarith
  have hcos : 1 - (Real.pi ^ 2 / 1080) ^ 2 / 2 ≤ Real.cos (Real.pi ^ 2 / 1080) := Real.one_sub_sq_div_two_le_cos
  have hsin : Real.sin (Real.pi ^ 2 / 1080) < Real.pi ^ 2 / 1080 := Real.sin_lt hx0
  have htan : Real.tan (Real.pi ^ 2 / 1080) < 1 / 99 := by
    rw [Real.tan_eq_sin_div_cos, div_lt_iff₀ (by nlinarith)]
    nlinarith
  have hs3 : Real.sqrt 3 < 1.8 := by
    rw [Real.sqrt_lt' (by norm_num)]
    norm_num
  have hs30 : 0 < Real.sqrt 3 := by positivity
  have h6 : 1 / 1.8 < 1 / Real.sqrt 3 := one_div_lt_one_div_of_lt hs30 hs3
  have h7 : 50 * Real.tan (Real.pi ^ 2 / 1080) < 1 / Real.sqrt 3 := by
    refine lt_trans ?_ h6
    norm_num at htan ⊢
    linarith
  have := mul_lt_mul_of_pos_right h7 (by positivity : 0 < 2 * focal)
  nlinarith

/-- The loop over clouds (unified.py:116-128, 465-470): cameras are indexed with the number of the cloud; `inl` is the error of the check, `inr none` an index error. -/
def clouds (cams nclouds : Nat) : Except Unit (Option (List Nat)) :=
  if nclouds ≠ cams ∧ cams ≠ 1 then .error () else .ok ((List.range nclouds).mapM fun i => if i < cams then some i else none)

theorem mapM_all {α β : Type} {f : α → Option β} {l : List α} {v : List β} (h : l.mapM f = some v) : ∀ a ∈ l, (f a).isSome := by
  induction l generalizing v with
  | nil => simp
  | cons x l ih =>
    simp only [List.mapM_cons, Option.bind_eq_bind, Option.bind_eq_some_iff] at h
    obtain ⟨y, hy, ys, hys, -⟩ := h
    intro a ha
    rcases List.mem_cons.mp ha with rfl | ha
    · simp [hy]
    · exact ih hys a ha

theorem mapM_self {f : Nat → Option Nat} {l : List Nat} (h : ∀ a ∈ l, f a = some a) : l.mapM f = some l := by
  induction l with
  | nil => rfl
  | cons x l ih =>
    rw [List.mapM_cons, h x List.mem_cons_self, ih fun a ha => h a (List.mem_cons_of_mem _ ha)]
    rfl

/-- One camera for several clouds passes the check, then fails with an index error, although the documentation promises that it is used for all clouds. -/
theorem one_camera (n : Nat) (hn : 1 < n) : clouds 1 n = .ok none := by
  unfold clouds
  rw [if_neg (by simp)]
  congr 1
  by_contra hcon
  obtain ⟨l, hl⟩ := Option.ne_none_iff_exists'.mp hcon
  have h2 := mapM_all hl 1 (List.mem_range.mpr hn)
  simp at h2

theorem as_many_cameras (n : Nat) : clouds n n = .ok (some (List.range n)) := by
  unfold clouds
  rw [if_neg (by simp)]
  congr 1
  exact mapM_self fun i hi => if_pos (List.mem_range.mp hi)

/-! ### Examples -/

example : trunc (5 / 2) = 2 ∧ trunc (-5 / 2) = -2 := by
  constructor
  · rw [trunc, if_pos (by norm_num)]
    norm_num [Int.floor_eq_iff]
  · rw [trunc, if_neg (by norm_num)]
    norm_num [Int.ceil_eq_iff]

/-- A principal point of half the image above the centre: the row is off by a full image height. -/
example (t : V3 ℝ) (i : Nat) : ∃ p c, unified 100 100 1 1 t ⟨1, 1, 0, 1⟩ = some p ∧ camInfo 0 false 100 100 (transformCam false false false 100 100 p) = some c ∧
    screen 100 100 1 t ⟨1, 1, 0, 1⟩ (c.eye + (1 : ℝ) • filmRay c i (100 - 1 - 40)) = ((i : ℝ) + 1 / 2, 40 + 1 / 2 - 100) := by
  obtain ⟨p, c, h1, h2, h3⟩ := unified_pixel (eps := 0) le_rfl 100 100 (by norm_num) le_rfl M3.IsRot.one t 1 (by norm_num) 1 0 1 (by norm_num) 0 50 (by norm_num) (by norm_num) i 40
    (by norm_num) 1 (by norm_num)
  refine ⟨p, c, h1, h2, ?_⟩
  have e : ((100 : ℕ) : ℝ) = 100 := by norm_num
  rw [e] at h3
  rw [h3]
  norm_num

example : clouds 1 3 = .ok none ∧ clouds 3 3 = .ok (some [0, 1, 2]) ∧ clouds 2 3 = .error () := by
  refine ⟨one_camera 3 (by norm_num), as_many_cameras 3, rfl⟩

end P3D.PulsarCam
