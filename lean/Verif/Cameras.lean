/-
`renderer/cameras.py`: the four camera classes, their projections and unprojections, the conversions
between NDC and screen space, and `look_at_view_transform`.

A camera object is a batch of `N` cameras: its attributes are lists of length `N` (the constructor
broadcasts them, renderer/utils.py 96-150).  Methods return the new state of the object as well, because
`get_world_to_view_transform` stores the keyword arguments `R` and `T`.  `tan(fov / 2)` is a parameter of the
projection matrix.
-/
import Verif.Transform3d
import Mathlib.Analysis.SpecialFunctions.Trigonometric.Basic

namespace P3D.Camera
open T3d

/-- One FoVPerspectiveCamera: `tan(fov / 2)` instead of `fov`. -/
structure FovP (K : Type*) where
  znear : K
  zfar : K
  aspect : K
  tanHalf : K
  deriving DecidableEq

/-- One FoVOrthographicCamera. -/
structure FovO (K : Type*) where
  znear : K
  zfar : K
  maxX : K
  minX : K
  maxY : K
  minY : K
  scale : V3 K
  deriving DecidableEq

/-- One PerspectiveCamera or OrthographicCamera: focal lengths and principal point. -/
structure Sfm (K : Type*) where
  fx : K
  fy : K
  px : K
  py : K
  deriving DecidableEq

/-- The class of the object with the per-camera parameters; the last two carry `in_ndc`. -/
inductive Params (K : Type*)
  | fovPersp (l : List (FovP K))
  | fovOrtho (l : List (FovO K))
  | persp (inNdc : Bool) (l : List (Sfm K))
  | ortho (inNdc : Bool) (l : List (Sfm K))

/-- State of a camera object.  `image_size` is a list of (height, width). -/
structure Cam (K : Type*) where
  n : Nat
  R : List (M3 K)
  T : List (V3 K)
  kmat : Option (List (M4 K))
  params : Params K
  imageSize : Option (List (K × K))

/-- Keyword arguments of a call.  `params` stands for the arguments that replace class parameters
(`fov`, `znear`, `focal_length`, …), given as the complete new parameters. -/
structure Kw (K : Type*) where
  R : Option (List (M3 K)) := none
  T : Option (List (V3 K)) := none
  kmat : Option (List (M4 K)) := none
  params : Option (Params K) := none
  imageSize : Option (List (K × K)) := none

/-- No keyword arguments. -/
def noKw {K : Type*} : Kw K := {}

variable {K : Type*} [Field K]

/-! ### Projection matrices -/

/-- `FoVPerspectiveCameras.compute_projection_matrix`, lines 594-641 (before the transposition). -/
def fovPerspMat (c : FovP K) : M4 K :=
  let maxY := c.tanHalf * c.znear
  let minY := -maxY
  let maxX := maxY * c.aspect
  let minX := -maxX
  !![2 * c.znear / (maxX - minX), 0, (maxX + minX) / (maxX - minX), 0;
     0, 2 * c.znear / (maxY - minY), (maxY + minY) / (maxY - minY), 0;
     0, 0, c.zfar / (c.zfar - c.znear), -(c.zfar * c.znear) / (c.zfar - c.znear);
     0, 0, 1, 0]

/-- `FoVOrthographicCameras.compute_projection_matrix`, lines 855-899. -/
def fovOrthoMat (c : FovO K) : M4 K :=
  !![2 / (c.maxX - c.minX) * c.scale.x, 0, 0, -(c.maxX + c.minX) / (c.maxX - c.minX);
     0, 2 / (c.maxY - c.minY) * c.scale.y, 0, -(c.maxY + c.minY) / (c.maxY - c.minY);
     0, 0, 1 / (c.zfar - c.znear) * c.scale.z, -c.znear / (c.zfar - c.znear);
     0, 0, 0, 1]

/-- `_get_sfm_calibration_matrix(orthographic=False)`, lines 1529-1556. -/
def perspMat (c : Sfm K) : M4 K :=
  !![c.fx, 0, c.px, 0; 0, c.fy, c.py, 0; 0, 0, 0, 1; 0, 0, 1, 0]

/-- `_get_sfm_calibration_matrix(orthographic=True)`. -/
def orthoMat (c : Sfm K) : M4 K :=
  !![c.fx, 0, 0, c.px; 0, c.fy, 0, c.py; 0, 0, 1, 0; 0, 0, 0, 1]

/-- The calibration matrices of the class, one per camera. -/
def calib : Params K → List (M4 K)
  | .fovPersp l => l.map fovPerspMat
  | .fovOrtho l => l.map fovOrthoMat
  | .persp _ l => l.map perspMat
  | .ortho _ l => l.map orthoMat

/-- `get_projection_transform` of the four classes, lines 677-698, 929-948, 1138-1155, 1378-1395. -/
def projection (kw : Kw K) (c : Cam K) : Except Err (T3 K) :=
  match kw.kmat.or c.kmat with
  | some ks => if ks.length ≠ c.n then .error .value
    else .ok (.mk .base .f32 (ks.map Matrix.transpose) [])
  | none => .ok (.mk .base .f32 ((calib (kw.params.getD c.params)).map Matrix.transpose) [])

/-- `get_world_to_view_transform(R, T)`, lines 1589-1602. -/
def worldToView (R : List (M3 K)) (T : List (V3 K)) : Except Err (T3 K) :=
  if T.length ≠ R.length then .error .value
  else .ok (compose (rotate .f32 R) [.mk .translate .f32 (T.map translateMat) []])

/-- The assignments of lines 204-209 and 234-236. -/
def setRT (kw : Kw K) (c : Cam K) : Cam K := { c with R := kw.R.getD c.R, T := kw.T.getD c.T }

/-- Method `get_world_to_view_transform`, lines 187-211: new state and result. -/
def getWorldToView (kw : Kw K) (c : Cam K) : Cam K × Except Err (T3 K) :=
  (setRT kw c, worldToView (setRT kw c).R (setRT kw c).T)

/-- `get_full_projection_transform`, lines 213-239. -/
def fullProjection (kw : Kw K) (c : Cam K) : Cam K × Except Err (T3 K) :=
  (setRT kw c, do
    let w ← worldToView (setRT kw c).R (setRT kw c).T
    let p ← projection kw (setRT kw c)
    .ok (compose w [p]))

/-- `get_camera_center`, lines 161-185. -/
noncomputable def cameraCenter (kw : Kw K) (c : Cam K) : Cam K × Except Err (List (V3 K)) :=
  ((getWorldToView kw c).1, do
    let w ← (getWorldToView kw c).2
    let i ← inverse w
    match getMatrix i with
    | none => .error .value
    | some ms => .ok (ms.map M4.transl))

section points
variable [LinearOrder K]

/-- `transform_points`, lines 241-269. -/
def transformPts (kw : Kw K) (eps : Option K) (pts : Pts K) (c : Cam K) : Cam K × Except Err (Pts K) :=
  ((fullProjection kw c).1, do
    let t ← (fullProjection kw c).2
    transformPoints t eps pts)

/-! ### NDC and screen space -/

/-- Matrix of lines 1803-1813 for one (height, width), before the transposition. -/
def ndcToScreenMat (hw : K × K) : M4 K :=
  let s := min hw.1 hw.2 / 2
  !![s, 0, 0, -1 * hw.2 / 2; 0, s, 0, -1 * hw.1 / 2; 0, 0, 1, 0; 0, 0, 0, 1]

/-- Lines 1822-1824. -/
def flipMat : M4 K := !![-1, 0, 0, 0; 0, -1, 0, 0; 0, 0, 1, 0; 0, 0, 0, 1]

/-- `get_ndc_to_screen_transform`, lines 1763-1830, for a batch of `n` cameras.  The assignment of a
column to `K[:, 0, 0]` needs one or `n` image sizes. -/
def ndcToScreen (n : Nat) (flip : Bool) (imageSize : Option (List (K × K))) : Except Err (T3 K) :=
  match imageSize with
  | none => .error .value
  | some hw =>
    if hw.length = n ∨ hw.length = 1 then
      let t : T3 K := .mk .base .f32 ((List.range n).map fun i =>
        (ndcToScreenMat (pick (0, 0) hw i)).transpose) []
      .ok (if flip then compose t [.mk .base .f32 (List.replicate n flipMat.transpose) []] else t)
    else .error .value

/-- `get_screen_to_ndc_transform`, lines 1833-1866. -/
noncomputable def screenToNdc (n : Nat) (flip : Bool) (imageSize : Option (List (K × K))) : Except Err (T3 K) := do
  let t ← ndcToScreen n flip imageSize
  inverse t

/-- `in_ndc()`. -/
def Params.inNdc : Params K → Bool
  | .fovPersp _ => true
  | .fovOrtho _ => true
  | .persp b _ => b
  | .ortho b _ => b

/-- `get_principal_point` of PerspectiveCameras (row 2, lines 1198-1199) and OrthographicCameras (row 3,
lines 1432-1433). -/
def principalPoint (kw : Kw K) (c : Cam K) : Except Err (List (K × K)) := do
  let p ← projection kw c
  match getMatrix p with
  | none => .error .value
  | some ms => .ok (match c.params with
    | .persp _ _ => ms.map fun m => (m 2 0, m 2 1)
    | _ => ms.map fun m => (m 3 0, m 3 1))

/-- `pr_point_fix`, lines 1220-1230 and 1452-1462, transposed. -/
def prPointFix (p : K × K) : M4 K := translateMat ⟨-2 * p.1, -2 * p.2, 0⟩

/-- `get_ndc_camera_transform`, lines 1201-1237 and 1435-1469 (and 286-287 for the FoV classes). -/
noncomputable def ndcCamera (kw : Kw K) (c : Cam K) : Except Err (T3 K) :=
  if c.params.inNdc then .ok (.mk .base .f32 [1] [])
  else do
    let pp ← principalPoint kw c
    let s ← screenToNdc c.n false (kw.imageSize.or c.imageSize)
    .ok (compose (.mk .base .f32 (pp.map prPointFix) []) [s])

/-- Lines 324-327: the transform to NDC. -/
noncomputable def toNdc (kw : Kw K) (c : Cam K) : Cam K × Except Err (T3 K) :=
  ((fullProjection kw c).1, do
    let t ← (fullProjection kw c).2
    if c.params.inNdc then .ok t
    else do
      let s ← ndcCamera kw (fullProjection kw c).1
      .ok (compose t [s]))

/-- `transform_points_ndc`, lines 301-329. -/
noncomputable def transformPtsNdc (kw : Kw K) (eps : Option K) (pts : Pts K) (c : Cam K) :
    Cam K × Except Err (Pts K) :=
  ((toNdc kw c).1, do
    let t ← (toNdc kw c).2
    transformPoints t eps pts)

/-- `transform_points_screen`, lines 331-363. -/
noncomputable def transformPtsScreen (kw : Kw K) (eps : Option K) (flip : Bool) (pts : Pts K) (c : Cam K) :
    Cam K × Except Err (Pts K) :=
  ((transformPtsNdc kw eps pts c).1, do
    let q ← (transformPtsNdc kw eps pts c).2
    let t ← ndcToScreen c.n flip (kw.imageSize.or c.imageSize)
    transformPoints t eps q)

/-! ### Unprojection -/

/-- Replace the third coordinate of points. -/
def mapZ (f : K → K) (l : List (V3 K)) : List (V3 K) := l.map fun p => ⟨p.x, p.y, f p.z⟩

/-- Scaled depth of FoVPerspectiveCameras, lines 726-735: `f1`, `f2` come from the projection matrix. -/
def scaleDepthP (m : M4 K) (d : K) : K := (m 2 2 * d + m 3 2) / d

/-- Scaled depth of FoVOrthographicCameras, lines 978-983. -/
def scaleDepthO (m : M4 K) (d : K) : K := m 2 2 * d + m 3 2

/-- Depth scaling of a whole tensor by the batch of projection matrices `ms`: the coefficients are
reshaped to `(N, 1, 1)` (`(N, 1)` for unbatched points in FoVPerspectiveCameras), multiplied with
broadcasting and concatenated with the xy part, which must have the same batch size.  With unbatched
points and `N = P > 1` camera `i` is used for point `i`.  FoVOrthographicCameras always reshapes to three
dimensions, so unbatched points fail at `torch.cat`. -/
def scaleDepths (persp : Bool) (ms : List (M4 K)) : Pts K → Except Err (Pts K)
  | .batch b =>
    let f := if persp then scaleDepthP else scaleDepthO
    if ms.length = 1 ∨ ms.length = b.length then
      .ok (.batch ((List.range b.length).map fun i => mapZ (f (pick 1 ms i)) (b.getD i [])))
    else .error .value
  | .single l =>
    if persp then
      if ms.length = 1 ∨ ms.length = l.length then
        .ok (.single ((List.range l.length).map fun i =>
          let p := l.getD i 0; ⟨p.x, p.y, scaleDepthP (pick 1 ms i) p.z⟩))
      else .error .value
    else .error .value

/-- `torch.cat((xy_depth[..., :2], torch.reciprocal(xy_depth[..., 2:3])))`, lines 1181-1186. -/
def recipDepths : Pts K → Pts K
  | .batch b => .batch (b.map (mapZ (·⁻¹)))
  | .single l => .single (mapZ (·⁻¹) l)

/-- Lines 721-735 and 973-985: the scaled depth, with the projection matrix for the keyword arguments. -/
def fovScaled (persp scaled : Bool) (kw : Kw K) (c : Cam K) (xyd : Pts K) : Except Err (Pts K) :=
  if scaled then .ok xyd
  else do
    let p ← projection kw c
    match getMatrix p with
    | none => .error .value
    | some ms => scaleDepths persp ms xyd

/-- The transform that is inverted: lines 715-719 (FoVPerspectiveCameras: called **without** the keyword
arguments), 968-971, 1171-1178, 1411-1418 (`get_ndc_camera_transform` without keyword arguments). -/
noncomputable def unprojTransform (kw : Kw K) (world fromNdc : Bool) (c : Cam K) : Cam K × Except Err (T3 K) :=
  match c.params with
  | .fovPersp _ => if world then fullProjection noKw c else (c, projection noKw c)
  | .fovOrtho _ => if world then fullProjection kw c else (c, projection kw c)
  | _ =>
    let r := if world then fullProjection kw c else (c, projection kw c)
    (r.1, do
      let t ← r.2
      if fromNdc then do
        let s ← ndcCamera noKw r.1
        .ok (compose t [s])
      else .ok t)

/-- The points given to the inverted transform. -/
def unprojInput (kw : Kw K) (scaled : Bool) (c : Cam K) (xyd : Pts K) : Except Err (Pts K) :=
  match c.params with
  | .fovPersp _ => fovScaled true scaled kw c xyd
  | .fovOrtho _ => fovScaled false scaled kw c xyd
  | .persp _ _ => .ok (recipDepths xyd)
  | .ortho _ _ => .ok xyd

/-- `unproject_points` of the four classes, lines 700-739, 950-988, 1157-1187, 1397-1421
(`scaled_depth_input` exists in the FoV classes, `from_ndc` in the other two). -/
noncomputable def unproject (kw : Kw K) (world scaled fromNdc : Bool) (xyd : Pts K) (c : Cam K) :
    Cam K × Except Err (Pts K) :=
  ((unprojTransform kw world fromNdc c).1, do
    let t ← (unprojTransform kw world fromNdc c).2
    let x ← unprojInput kw scaled (unprojTransform kw world fromNdc c).1 xyd
    let i ← inverse t
    transformPoints i none x)

end points

/-! ### Placing the camera -/

noncomputable section

/-- `camera_position_from_spherical_angles`, lines 1634-1644, for one camera. -/
def sphericalPos (dist elev azim : ℝ) (degrees : Bool) : V3 ℝ :=
  let e := if degrees then Real.pi / 180 * elev else elev
  let a := if degrees then Real.pi / 180 * azim else azim
  ⟨dist * Real.cos e * Real.sin a, dist * Real.sin e, dist * Real.cos e * Real.cos a⟩

/-- `F.normalize(v, eps=1e-5)`. -/
def normalize5 (v : V3 ℝ) : V3 ℝ := (max (Rot.norm v) (1 / 10 ^ 5))⁻¹ • v

/-- `torch.isclose(x_axis, 0, atol=5e-3).all(dim=1)`, lines 1687-1689. -/
def closeToZero (v : V3 ℝ) : Prop := |v.x| ≤ 5 / 10 ^ 3 ∧ |v.y| ≤ 5 / 10 ^ 3 ∧ |v.z| ≤ 5 / 10 ^ 3

/-- The axes of `look_at_rotation`, lines 1684-1692, for one camera. -/
def axisZ (pos «at» : V3 ℝ) : V3 ℝ := normalize5 («at» - pos)
def axisX0 (pos «at» up : V3 ℝ) : V3 ℝ := normalize5 (V3.cross up (axisZ pos «at»))
def axisY (pos «at» up : V3 ℝ) : V3 ℝ := normalize5 (V3.cross (axisZ pos «at») (axisX0 pos «at» up))
open Classical in
def axisX (pos «at» up : V3 ℝ) : V3 ℝ :=
  if closeToZero (axisX0 pos «at» up) then normalize5 (V3.cross (axisY pos «at» up) (axisZ pos «at»))
  else axisX0 pos «at» up

/-- `look_at_rotation`, lines 1647-1694. -/
def lookAtRotation (pos «at» up : V3 ℝ) : M3 ℝ :=
  (M3.ofRows (axisX pos «at» up) (axisY pos «at» up) (axisZ pos «at»)).transpose

/-- `look_at_view_transform` with `eye` given, lines 1738-1741, 1758-1760. -/
def lookAtEye (eye «at» up : V3 ℝ) : M3 ℝ × V3 ℝ :=
  let r := lookAtRotation eye «at» up
  (r, -M3.mulVec r.transpose eye)

/-- `look_at_view_transform` with `dist`, `elev`, `azim`, lines 1742-1760. -/
def lookAtSpherical (dist elev azim : ℝ) (degrees : Bool) («at» up : V3 ℝ) : M3 ℝ × V3 ℝ :=
  lookAtEye (sphericalPos dist elev azim degrees + «at») «at» up

end

end P3D.Camera
