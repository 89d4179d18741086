/-
The OpenGL rasterizer: `renderer/opengl/rasterizer_opengl.py` and the device store of `renderer/opengl/opengl_utils.py`.

Numbers are an ordered field.  The OpenGL pipeline itself is not part of the repository: `bary`, `frag`, `draw` state what
the GL specification guarantees of an exact implementation (homogeneous clipping, perspective-correct varyings, the
default depth test `GL_LESS`, triangles closed at their edges) and are trusted.  Face ids go through a 32 bit float in
the code; here they stay naturals.
-/
import Verif.Vec3
import Verif.RasterPoints
import Mathlib.Algebra.Order.Field.Basic
import Mathlib.Tactic.FieldSimp
import Mathlib.Tactic.Linarith
import Mathlib.Tactic.Positivity
import Mathlib.Tactic.NormNum
import Mathlib.Data.List.Induction

set_option linter.unusedSectionVars false

namespace P3D.GlRaster

/-- The exceptions met here. -/
inductive Err
  | value
  | notImplemented
  | index
  deriving DecidableEq, Repr

/-! ## Checks -/

/-- The raster settings read by the OpenGL rasterizer. -/
structure Settings where
  imageH : Nat
  imageW : Nat
  facesPerPixel : Nat
  cullBack : Bool
  cullFrustum : Bool
  zclip : Bool
  persp : Option Bool
  deriving DecidableEq, Repr

/-- `_check_raster_settings`, `rasterizer_opengl.py:665-684`: the number of warnings, or the exception. -/
def checkSettings (s : Settings) : Except Err Nat :=
  if s.zclip then .error .notImplemented
  else if s.persp = some false then .error .value
  else .ok ((if s.facesPerPixel > 1 then 1 else 0) + (if s.cullBack then 1 else 0) + (if s.cullFrustum then 1 else 0))

/-- `_check_cameras`, `rasterizer_opengl.py:652-662`: only the exact class name counts. -/
def checkCameras (name : Option String) : Except Err Unit :=
  match name with
  | none => .error .value
  | some n => if n = "PerspectiveCameras" ∨ n = "OrthographicCameras" then .error .value else .ok ()

/-- `_parse_and_verify_image_size`, `rasterizer_opengl.py:100-117`, with the maxima of `opengl_utils.py:322-323`. -/
def checkSize (maxH maxW : Nat) (s : Settings) : Except Err (Nat × Nat) :=
  if s.imageH > maxH ∨ s.imageW > maxW then .error .value else .ok (s.imageH, s.imageW)

/-- The checks of `forward` in order, `rasterizer_opengl.py:184-196`. -/
def checkAll (cpu : Bool) (maxH maxW : Nat) (s : Settings) (cam : Option String) : Except Err (Nat × Nat) :=
  if cpu then .error .value
  else match checkSettings s with
  | .error e => .error e
  | .ok _ => match checkSize maxH maxW s with
    | .error e => .error e
    | .ok hw => match checkCameras cam with
      | .error e => .error e
      | .ok _ => .ok hw

/-- `forward` proceeds exactly on a CUDA batch, without z-clipping, without disabled perspective correction, with an image
    inside the frame buffer and a camera that is not one of the two named classes.  Requests for several faces per
    pixel and for culling pass with a warning and are ignored. -/
theorem checkAll_ok (cpu : Bool) (maxH maxW : Nat) (s : Settings) (cam : Option String) (hw : Nat × Nat) :
    checkAll cpu maxH maxW s cam = .ok hw ↔
      cpu = false ∧ s.zclip = false ∧ s.persp ≠ some false ∧ s.imageH ≤ maxH ∧ s.imageW ≤ maxW ∧
      (∃ n, cam = some n ∧ n ≠ "PerspectiveCameras" ∧ n ≠ "OrthographicCameras") ∧ hw = (s.imageH, s.imageW) := by
  unfold checkAll checkSettings checkSize checkCameras
  cases cpu <;> cases hz : s.zclip <;> by_cases hp : s.persp = some false <;>
    by_cases hs : s.imageH > maxH ∨ s.imageW > maxW <;> cases cam <;> simp [hp, hs] <;> try omega
  · push Not at hs
    split_ifs with h
    · constructor
      · intro hh; cases hh
      · rintro ⟨_, _, ⟨h1, h2⟩, _⟩
        rcases h with h | h <;> contradiction
    · push Not at h
      simp only [Except.ok.injEq]
      exact ⟨fun hh => ⟨hs.1, hs.2, ⟨h.1, h.2⟩, hh.symm⟩, fun hh => hh.2.2.2.symm⟩

example : checkAll false 2048 2048 ⟨64, 32, 8, true, true, false, none⟩ (some "FishEyeCameras") = .ok (64, 32) := by decide
example : checkAll false 2048 2048 ⟨64, 32, 8, true, true, false, some true⟩ (some "PerspectiveCameras") = .error .value := by decide

/-- The first failing check decides the exception. -/
theorem checkAll_zclip (maxH maxW : Nat) (s : Settings) (cam : Option String) :
    checkAll false maxH maxW s cam = .error .notImplemented ↔ s.zclip = true := by
  unfold checkAll checkSettings checkSize checkCameras
  cases hz : s.zclip <;> by_cases hp : s.persp = some false <;>
    by_cases hs : s.imageH > maxH ∨ s.imageW > maxW <;> cases cam <;> simp [hp, hs]
  split_ifs <;> simp

example : checkAll false 2048 2048 ⟨4096, 32, 1, false, false, true, some false⟩ none = .error .notImplemented := by decide

/-! ## The projection matrix in GL memory -/

section mats
variable {K : Type} [Field K] [LinearOrder K] [IsStrictOrderedRing K]

/-- `projection_matrix.flatten()`, `rasterizer_opengl.py:414`: row-major floats of a 4 × 4 tensor. -/
def flat (M : Nat → Nat → K) : List K := (List.range 16).map (fun i => M (i / 4) (i % 4))

/-- `glUniformMatrix4fv(…, 1, GL_FALSE, …)`, `rasterizer_opengl.py:410-415`: sixteen floats in column-major order. -/
def glMat (l : List K) (r c : Nat) : K := l.getD (4 * c + r) 0

/-- The tensor stored in a `Transform3d` is the transpose of the camera matrix (`cameras.py:700-704`), flattened by rows and
    read by columns: the shader multiplies with the camera matrix itself. -/
theorem glMat_flat (C : Nat → Nat → K) {r c : Nat} (hr : r < 4) (hc : c < 4) :
    glMat (flat (fun i j => C j i)) r c = C r c := by
  have h : 4 * c + r < 16 := by omega
  unfold glMat flat
  rw [List.getD_eq_getElem?_getD, List.getElem?_map, List.getElem?_range h]
  have h1 : (4 * c + r) / 4 = c := by omega
  have h2 : (4 * c + r) % 4 = r := by omega
  simp [h1, h2]

example : glMat (flat (fun i j => (10 * j + i : ℚ))) 2 3 = 23 := by
  rw [glMat_flat (fun i j => (10 * i + j : ℚ)) (by norm_num) (by norm_num)]; norm_num

/-- A clip-space vertex `gl_Position`. -/
structure Clip (K : Type) where
  x : K
  y : K
  z : K
  w : K
  deriving DecidableEq, Repr

/-- `perspective_projection * vec4(position, 1.0)`, `rasterizer_opengl.py:63-67`. -/
def clipOf (m : Nat → Nat → K) (v : V3 K) : Clip K :=
  let row := fun r => m r 0 * v.x + m r 1 * v.y + m r 2 * v.z + m r 3
  ⟨row 0, row 1, row 2, row 3⟩

/-- The matrix of `FoVPerspectiveCameras.compute_projection_matrix`, `cameras.py:616-649`, with `sx`, `sy` the focal entries
    `2 znear/(max_x - min_x)`, `2 znear/(max_y - min_y)`; the symmetric frustum makes the entries (0,2), (1,2) zero. -/
def fov (sx sy n f : K) (r c : Nat) : K :=
  if r = 0 ∧ c = 0 then sx else if r = 1 ∧ c = 1 then sy else if r = 2 ∧ c = 2 then f / (f - n)
  else if r = 2 ∧ c = 3 then -(f * n) / (f - n) else if r = 3 ∧ c = 2 then 1 else 0

theorem clip_fov (sx sy n f : K) (v : V3 K) :
    clipOf (fov sx sy n f) v = ⟨sx * v.x, sy * v.y, f / (f - n) * v.z + -(f * n) / (f - n), v.z⟩ := by
  simp [clipOf, fov]

example : clipOf (fov (2 : ℚ) 2 1 3) ⟨1, 1, 3⟩ = ⟨2, 2, 3, 3⟩ := by rw [clip_fov]; norm_num

/-! ## Vertices in GL coordinates -/

/-- The factor of x in `_convert_meshes_to_gl_ndc`, `rasterizer_opengl.py:715-723`. -/
def squeezeX (H W : Nat) : K := if W > H then (H : K) / W else 1
/-- The factor of y. -/
def squeezeY (H W : Nat) : K := if H > W then (W : K) / H else 1

/-- `_convert_meshes_to_gl_ndc`, `rasterizer_opengl.py:704-723`, on view coordinates (`get_ndc_camera_transform` is the
    identity for the FoV cameras, `cameras.py:271-298`). -/
def toGl (H W : Nat) (v : V3 K) : V3 K := ⟨squeezeX H W * -v.x, squeezeY H W * -v.y, v.z⟩

/-- The centre of column `c` of a viewport of width `W` in GL coordinates. -/
def centre (c W : Nat) : K := -1 + (2 * c + 1) / W

/-- Centres agree: the GL centre of column `c`, undoing flip and squeeze, is the NDC centre that `MeshRasterizer` gives to column `c` of the
    output (index `W - 1 - c` of `PixToNonSquareNdc`). -/
theorem centre_x {H W c : Nat} (hH : 0 < H) (hc : c < W) :
    -(centre c W : K) = squeezeX H W * Raster.pixToNdc (W - 1 - c) W H := by
  have hW : (W : K) ≠ 0 := by have : 0 < W := by omega
                              positivity
  have hH' : (H : K) ≠ 0 := by positivity
  have e : ((W - 1 - c : ℕ) : K) = W - 1 - c := by
    rw [Nat.cast_sub (by omega), Nat.cast_sub (by omega)]; simp
  unfold centre squeezeX Raster.pixToNdc Raster.ndcRange
  rw [e]
  split_ifs with h
  · field_simp; ring
  · field_simp; ring

theorem centre_y {H W r : Nat} (hW : 0 < W) (hr : r < H) :
    -(centre r H : K) = squeezeY H W * Raster.pixToNdc (H - 1 - r) H W := centre_x (H := W) (W := H) hW hr

example : -(centre 1 4 : ℚ) = squeezeX 2 4 * Raster.pixToNdc 2 4 2 := centre_x (by norm_num) (by norm_num)

theorem squeeze_pos {H W : Nat} (hH : 0 < H) (hW : 0 < W) : (0 : K) < squeezeX H W ∧ (0 : K) < squeezeY H W := by
  unfold squeezeX squeezeY
  constructor <;> split_ifs <;> positivity

/-! ## One fragment -/

/-- A triangle of the mesh buffer: three positions, `rasterizer_opengl.py:51-58`, `458-461`. -/
structure Tri (K : Type) where
  p0 : V3 K
  p1 : V3 K
  p2 : V3 K
  deriving DecidableEq, Repr

/-- What the fragment shader writes (`rasterizer_opengl.py:93-97`): two barycentrics and the depth, with the window depth of the fragment. -/
structure Frag (K : Type) where
  b0 : K
  b1 : K
  depth : K
  win : K
  deriving DecidableEq, Repr

/-- Combination of the three values of a varying. -/
def comb (b : V3 K) (a0 a1 a2 : K) : K := b.x * a0 + b.y * a1 + b.z * a2

/-- The perspective-correct weights of the fragment with GL coordinates (X, Y): the weights whose combination of the clip vertices
    lies above (X, Y), or `none` for a triangle seen edge-on. -/
def bary (X Y : K) (c0 c1 c2 : Clip K) : Option (V3 K) :=
  let u : V3 K := ⟨c0.x - X * c0.w, c1.x - X * c1.w, c2.x - X * c2.w⟩
  let v : V3 K := ⟨c0.y - Y * c0.w, c1.y - Y * c1.w, c2.y - Y * c2.w⟩
  let n : V3 K := ⟨u.y * v.z - u.z * v.y, u.z * v.x - u.x * v.z, u.x * v.y - u.y * v.x⟩
  let s := n.x + n.y + n.z
  if s = 0 then none else some ⟨n.x / s, n.y / s, n.z / s⟩

/-- The fragment of a triangle at (X, Y), clipped to `-w ≤ z ≤ w`, with the varyings of the geometry shader (`rasterizer_opengl.py:69-79`). -/
def frag (m : Nat → Nat → K) (X Y : K) (t : Tri K) : Option (Frag K) :=
  let c0 := clipOf m t.p0
  let c1 := clipOf m t.p1
  let c2 := clipOf m t.p2
  match bary X Y c0 c1 c2 with
  | none => none
  | some b =>
    let z := comb b c0.z c1.z c2.z
    let w := comb b c0.w c1.w c2.w
    if 0 ≤ b.x ∧ 0 ≤ b.y ∧ 0 ≤ b.z ∧ 0 < w ∧ -w ≤ z ∧ z ≤ w then
      some ⟨comb b 1 0 0, comb b 0 1 0, comb b t.p0.z t.p1.z t.p2.z, (z / w + 1) / 2⟩
    else none

/-- Weights of sum one orthogonal to two vectors are their normalised cross product. -/
theorem cross_unique (u0 u1 u2 v0 v1 v2 a0 a1 a2 s : K) (hs : s ≠ 0)
    (hd : (u1 * v2 - u2 * v1) + (u2 * v0 - u0 * v2) + (u0 * v1 - u1 * v0) = s) :
    (a0 = (u1 * v2 - u2 * v1) / s ∧ a1 = (u2 * v0 - u0 * v2) / s ∧ a2 = (u0 * v1 - u1 * v0) / s) ↔
      a0 + a1 + a2 = 1 ∧ a0 * u0 + a1 * u1 + a2 * u2 = 0 ∧ a0 * v0 + a1 * v1 + a2 * v2 = 0 := by
  constructor
  · rintro ⟨rfl, rfl, rfl⟩
    refine ⟨?_, ?_, ?_⟩
    · rw [← add_div, ← add_div, hd, div_self hs]
    · field_simp; ring
    · field_simp; ring
  · rintro ⟨h1, h2, h3⟩
    refine ⟨?_, ?_, ?_⟩
    · rw [eq_div_iff hs, ← hd]
      linear_combination (u1 * v2 - u2 * v1) * h1 + (v1 - v2) * h2 + (u2 - u1) * h3
    · rw [eq_div_iff hs, ← hd]
      linear_combination (u2 * v0 - u0 * v2) * h1 + (v2 - v0) * h2 + (u0 - u2) * h3
    · rw [eq_div_iff hs, ← hd]
      linear_combination (u0 * v1 - u1 * v0) * h1 + (v0 - v1) * h2 + (u1 - u0) * h3

example : ((1 : ℚ) / 3 = (1 * 1 - 0 * 0) / 3 ∧ (1 : ℚ) / 3 = (0 * -1 - -1 * 1) / 3 ∧ (1 : ℚ) / 3 = (-1 * 0 - 1 * -1) / 3) := by norm_num

/-- The weights are the only ones of sum one whose combination lies on the ray of the pixel. -/
theorem bary_unique (X Y : K) (c0 c1 c2 : Clip K) (b : V3 K) (h : bary X Y c0 c1 c2 = some b) (a : V3 K) :
    a = b ↔ a.x + a.y + a.z = 1 ∧ comb a c0.x c1.x c2.x = X * comb a c0.w c1.w c2.w ∧
      comb a c0.y c1.y c2.y = Y * comb a c0.w c1.w c2.w := by
  unfold bary at h
  simp only at h
  split_ifs at h with hs
  simp only [Option.some.injEq] at h
  have hu := cross_unique (c0.x - X * c0.w) (c1.x - X * c1.w) (c2.x - X * c2.w) (c0.y - Y * c0.w) (c1.y - Y * c1.w)
    (c2.y - Y * c2.w) a.x a.y a.z _ hs rfl
  rw [← h, V3.ext_iff]
  refine hu.trans ?_
  unfold comb
  constructor
  · rintro ⟨h1, h2, h3⟩; exact ⟨h1, by linear_combination h2, by linear_combination h3⟩
  · rintro ⟨h1, h2, h3⟩; exact ⟨h1, by linear_combination h2, by linear_combination h3⟩

/-- A triangle yields a fragment exactly when it is not edge-on and the point of its plane above the pixel lies in the triangle, in front of the
    camera plane and between the clipping planes; the shader then reports that point's weights and z. -/
theorem frag_spec (m : Nat → Nat → K) (X Y : K) (t : Tri K) (fr : Frag K) :
    frag m X Y t = some fr ↔ ∃ b : V3 K, bary X Y (clipOf m t.p0) (clipOf m t.p1) (clipOf m t.p2) = some b ∧
      0 ≤ b.x ∧ 0 ≤ b.y ∧ 0 ≤ b.z ∧
      (let z := comb b (clipOf m t.p0).z (clipOf m t.p1).z (clipOf m t.p2).z
       let w := comb b (clipOf m t.p0).w (clipOf m t.p1).w (clipOf m t.p2).w
       0 < w ∧ -w ≤ z ∧ z ≤ w ∧ fr.win = (z / w + 1) / 2) ∧
      fr.b0 = b.x ∧ fr.b1 = b.y ∧ fr.depth = comb b t.p0.z t.p1.z t.p2.z := by
  unfold frag
  dsimp only
  cases hb : bary X Y (clipOf m t.p0) (clipOf m t.p1) (clipOf m t.p2) with
  | none => simp
  | some b =>
    simp only [Option.some.injEq, exists_eq_left']
    have e0 : comb b 1 0 0 = b.x := by unfold comb; ring
    have e1 : comb b 0 1 0 = b.y := by unfold comb; ring
    rw [e0, e1]
    split_ifs with h
    · obtain ⟨h1, h2, h3, h4, h5, h6⟩ := h
      simp only [Option.some.injEq]
      constructor
      · rintro rfl; exact ⟨h1, h2, h3, ⟨h4, h5, h6, rfl⟩, rfl, rfl, rfl⟩
      · rintro ⟨-, -, -, ⟨-, -, -, e⟩, e1, e2, e3⟩
        cases fr; simp_all
    · constructor
      · intro hh; cases hh
      · rintro ⟨h1, h2, h3, ⟨h4, h5, h6, -⟩, -⟩
        exact absurd ⟨h1, h2, h3, h4, h5, h6⟩ h

/-! ## One pixel of one mesh -/

/-- A pixel of the frame buffer: the depth and, unless cleared, the face and the fragment. -/
abbrev Pix (K : Type) := K × Option (Nat × Frag K)

/-- The cleared pixel, `rasterizer_opengl.py:478-481`. -/
def cleared : Pix K := (1, none)

/-- One primitive under the default depth test `GL_LESS` (`rasterizer_opengl.py:575-577`): `gl_PrimitiveIDIn` is the index of the face. -/
def draw (m : Nat → Nat → K) (X Y : K) (px : Pix K) (ti : Tri K × Nat) : Pix K :=
  match frag m X Y ti.1 with
  | none => px
  | some fr => if fr.win < px.1 then (fr.win, some (ti.2, fr)) else px

/-- `glDrawArrays`, `rasterizer_opengl.py:487-489`, seen from one pixel: row `r`, column `c`. -/
def pixel (m : Nat → Nat → K) (H W : Nat) (tris : List (Tri K)) (r c : Nat) : Pix K :=
  (tris.zipIdx).foldl (draw m (centre c W) (centre r H)) cleared

/-- What a pixel holds after a list of primitives. -/
theorem draw_spec (m : Nat → Nat → K) (X Y : K) (l : List (Tri K)) :
    (∀ i fr, (l.zipIdx.foldl (draw m X Y) cleared).2 = some (i, fr) ↔
      ∃ t, l[i]? = some t ∧ frag m X Y t = some fr ∧ fr.win < 1 ∧
        ∀ j t' fr', l[j]? = some t' → frag m X Y t' = some fr' → fr.win ≤ fr'.win ∧ (j < i → fr.win < fr'.win)) ∧
    ((l.zipIdx.foldl (draw m X Y) cleared).2 = none ↔ ∀ t ∈ l, ∀ fr, frag m X Y t = some fr → 1 ≤ fr.win) ∧
    (∀ t ∈ l, ∀ fr, frag m X Y t = some fr → (l.zipIdx.foldl (draw m X Y) cleared).1 ≤ fr.win) ∧
    (l.zipIdx.foldl (draw m X Y) cleared).1 = ((l.zipIdx.foldl (draw m X Y) cleared).2.map (fun p => p.2.win)).getD 1 ∧
    (l.zipIdx.foldl (draw m X Y) cleared).1 ≤ 1 := by
  induction l using List.reverseRecOn with
  | nil => simp [cleared]
  | append_singleton l t ih =>
    rw [List.zipIdx_append, List.foldl_append]
    generalize l.zipIdx.foldl (draw m X Y) cleared = px at ih ⊢
    obtain ⟨ih1, ih2, ih3, ih4, ih5⟩ := ih
    simp only [List.zipIdx_singleton, List.foldl_cons, List.foldl_nil, Nat.zero_add]
    have get : ∀ (i : Nat) (t' : Tri K), (l ++ [t])[i]? = some t' ↔ l[i]? = some t' ∨ (i = l.length ∧ t = t') := by
      intro i t'
      rcases lt_trichotomy i l.length with h | h | h
      · rw [List.getElem?_append_left h]; simp; omega
      · subst h; simp
      · rw [List.getElem?_eq_none (by simp; omega), List.getElem?_eq_none (by omega)]; simp; omega
    have lt : ∀ (i : Nat) (t' : Tri K), l[i]? = some t' → i < l.length := by
      intro i t' h
      exact (List.getElem?_eq_some_iff.1 h).1
    have mem : ∀ (i : Nat) (t' : Tri K), l[i]? = some t' → t' ∈ l := by
      intro i t' h
      exact List.mem_of_getElem? h
    unfold draw
    cases hf : frag m X Y t with
    | none =>
      dsimp only
      refine ⟨?_, ?_, ?_, ih4, ih5⟩
      · intro i fr
        rw [ih1]
        constructor
        · rintro ⟨t', h1, h2, h3, h4⟩
          refine ⟨t', (get _ _).2 (.inl h1), h2, h3, ?_⟩
          intro j t'' fr' hj hf'
          rcases (get _ _).1 hj with hj | ⟨-, rfl⟩
          · exact h4 j t'' fr' hj hf'
          · rw [hf] at hf'; cases hf'
        · rintro ⟨t', h1, h2, h3, h4⟩
          rcases (get _ _).1 h1 with h1 | ⟨-, rfl⟩
          · exact ⟨t', h1, h2, h3, fun j t'' fr' hj => h4 j t'' fr' ((get _ _).2 (.inl hj))⟩
          · rw [hf] at h2; cases h2
      · rw [ih2]; simp [or_imp, forall_and, hf]
      · simp only [List.mem_append, List.mem_singleton]
        rintro t' (ht | rfl) fr hfr
        · exact ih3 t' ht fr hfr
        · rw [hf] at hfr; cases hfr
    | some f =>
      dsimp only
      split_ifs with hlt
      · refine ⟨?_, ?_, ?_, by simp, by dsimp only; linarith⟩
        · intro i fr
          simp only [Option.some.injEq, Prod.mk.injEq]
          constructor
          · rintro ⟨rfl, rfl⟩
            refine ⟨t, (get _ _).2 (.inr ⟨rfl, rfl⟩), hf, by linarith, ?_⟩
            intro j t' fr' hj hf'
            rcases (get _ _).1 hj with hj | ⟨rfl, rfl⟩
            · have := ih3 t' (mem _ _ hj) fr' hf'
              exact ⟨by linarith, fun _ => by linarith⟩
            · rw [hf] at hf'; cases hf'; exact ⟨le_refl _, fun h => absurd h (lt_irrefl _)⟩
          · rintro ⟨t', h1, h2, h3, h4⟩
            rcases (get _ _).1 h1 with h1 | ⟨rfl, rfl⟩
            · have a := (h4 l.length t f ((get _ _).2 (.inr ⟨rfl, rfl⟩)) hf).1
              have b := (ih1 i fr).2 ⟨t', h1, h2, h3, fun j t'' fr' hj => h4 j t'' fr' ((get _ _).2 (.inl hj))⟩
              rw [b] at ih4
              simp only [Option.map_some, Option.getD_some] at ih4
              linarith
            · rw [hf] at h2; cases h2; exact ⟨rfl, rfl⟩
        · simp only [false_iff]
          intro h
          have := h t (by simp) f hf
          linarith
        · simp only [List.mem_append, List.mem_singleton]
          rintro t' (ht | rfl) fr hfr
          · exact hlt.le.trans (ih3 t' ht fr hfr)
          · rw [hf] at hfr; cases hfr; exact le_refl _
      · push Not at hlt
        refine ⟨?_, ?_, ?_, ih4, ih5⟩
        · intro i fr
          constructor
          · intro hp
            obtain ⟨t', h1, h2, h3, h4⟩ := (ih1 i fr).1 hp
            refine ⟨t', (get _ _).2 (.inl h1), h2, h3, ?_⟩
            intro j t'' fr' hj hf'
            rcases (get _ _).1 hj with hj | ⟨rfl, rfl⟩
            · exact h4 j t'' fr' hj hf'
            · rw [hf] at hf'; cases hf'
              rw [hp] at ih4
              simp only [Option.map_some, Option.getD_some] at ih4
              exact ⟨by linarith, fun h => absurd h (by have := lt _ _ h1; omega)⟩
          · rintro ⟨t', h1, h2, h3, h4⟩
            rcases (get _ _).1 h1 with h1 | ⟨rfl, rfl⟩
            · exact (ih1 i fr).2 ⟨t', h1, h2, h3, fun j t'' fr' hj => h4 j t'' fr' ((get _ _).2 (.inl hj))⟩
            · rw [hf] at h2; cases h2
              exfalso
              cases hp : px.2 with
              | none => rw [hp] at ih4; simp at ih4; linarith
              | some p =>
                obtain ⟨k, fk⟩ := p
                obtain ⟨tk, g1, g2, -⟩ := (ih1 k fk).1 hp
                have := (h4 k tk fk ((get _ _).2 (.inl g1)) g2).2 (lt _ _ g1)
                rw [hp] at ih4
                simp only [Option.map_some, Option.getD_some] at ih4
                linarith
        · rw [ih2]
          simp only [List.mem_append, List.mem_singleton, or_imp, forall_and, forall_eq, hf, Option.some.injEq]
          constructor
          · intro h
            refine ⟨h, ?_⟩
            rintro fr rfl
            rw [(ih2.2 h)] at ih4; simp at ih4; linarith
          · exact fun h => h.1
        · simp only [List.mem_append, List.mem_singleton]
          rintro t' (ht | rfl) fr hfr
          · exact ih3 t' ht fr hfr
          · rw [hf] at hfr; cases hfr; exact hlt

/-! ## Reading the pixel -/

/-- The output of one pixel: `pix_to_face`, the three barycentrics and `zbuf`. -/
structure Out (K : Type) where
  face : ℤ
  b0 : K
  b1 : K
  b2 : K
  z : K
  deriving DecidableEq, Repr

/-- The four floats of the colour buffer, `rasterizer_opengl.py:478`, `93-97`: (b0, b1, depth, face). -/
def rgba (px : Pix K) : K × K × K × ℤ :=
  match px.2 with
  | none => (-1, -1, -1, -1)
  | some (i, fr) => (fr.b0, fr.b1, fr.depth, i)

/-- `torch.where(barycentric_coords == 3, -1, barycentric_coords)`, `rasterizer_opengl.py:522-524`. -/
def fix (x : K) : K := if x = 3 then -1 else x

/-- The read-out, `rasterizer_opengl.py:512-527`. -/
def decode (px : Pix K) : Out K :=
  ⟨(rgba px).2.2.2, fix (rgba px).1, fix (rgba px).2.1, fix (1 - (rgba px).1 - (rgba px).2.1), (rgba px).2.2.1⟩

/-- A background pixel is −1 throughout, the zbuf included (the docstrings say 1). -/
theorem decode_none (d : K) : decode ((d, none) : Pix K) = ⟨-1, -1, -1, -1, -1⟩ := by
  have h3 : (1 : K) - -1 - -1 = 3 := by ring
  have hf : fix (-1 : K) = -1 := by unfold fix; split_ifs <;> rfl
  have h3' : fix (3 : K) = -1 := if_pos rfl
  simp only [decode, rgba, h3, hf, h3']

example : decode ((1, none) : Pix ℚ) = ⟨-1, -1, -1, -1, -1⟩ := decode_none 1

/-! ## The whole rasterizer for a perspective FoV camera -/

/-- `_rasterize_mesh`, `rasterizer_opengl.py:420-529`, at row `r`, column `c` for view-space triangles. -/
def raster (m : Nat → Nat → K) (H W : Nat) (tris : List (Tri K)) (r c : Nat) : Out K :=
  decode (pixel m H W (tris.map (fun t => ⟨toGl H W t.p0, toGl H W t.p1, toGl H W t.p2⟩)) r c)

/-- The point of a triangle with given weights. -/
def point (t : Tri K) (b : V3 K) : V3 K :=
  ⟨comb b t.p0.x t.p1.x t.p2.x, comb b t.p0.y t.p1.y t.p2.y, comb b t.p0.z t.p1.z t.p2.z⟩

/-- The NDC position of a view-space point under the FoV camera. -/
def ndc (sx sy : K) (p : V3 K) : K × K := (sx * p.x / p.z, sy * p.y / p.z)

/-- Independent description of a hit: point `point t b` of the triangle with weights `b` projects to the NDC centre which `MeshRasterizer` gives to
    the pixel, and its depth lies between the two clipping planes of GL. -/
def Hit (sx sy n f : K) (H W : Nat) (t : Tri K) (r c : Nat) (b : V3 K) : Prop :=
  0 ≤ b.x ∧ 0 ≤ b.y ∧ 0 ≤ b.z ∧ b.x + b.y + b.z = 1 ∧
  ndc sx sy (point t b) = (Raster.pixToNdc (W - 1 - c) W H, Raster.pixToNdc (H - 1 - r) H W) ∧
  f * n / (2 * f - n) ≤ (point t b).z ∧ (point t b).z ≤ f

/-- The triangle is not seen edge-on from pixel (r, c). -/
def Faced (sx sy n f : K) (H W : Nat) (t : Tri K) (r c : Nat) : Prop :=
  bary (centre c W) (centre r H) (clipOf (fov sx sy n f) (toGl H W t.p0)) (clipOf (fov sx sy n f) (toGl H W t.p1))
    (clipOf (fov sx sy n f) (toGl H W t.p2)) ≠ none

theorem win_eq {n f z : K} (hf : n < f) (hz : 0 < z) :
    ((f / (f - n) * z + -(f * n) / (f - n)) / z + 1) / 2 = ((2 * f - n) * z - f * n) / (2 * (f - n) * z) := by
  have h1 : f - n ≠ 0 := by linarith
  have h2 : z ≠ 0 := hz.ne'
  field_simp
  ring

/-- Window depth grows strictly with the view depth. -/
theorem win_mono {n f y z : K} (hn : 0 < n) (hf : n < f) (hy : 0 < y) (hz : 0 < z) :
    ((f / (f - n) * y + -(f * n) / (f - n)) / y + 1) / 2 < ((f / (f - n) * z + -(f * n) / (f - n)) / z + 1) / 2 ↔ y < z := by
  rw [win_eq hf hy, win_eq hf hz]
  have h1 : 0 < f - n := by linarith
  rw [div_lt_div_iff₀ (by positivity) (by positivity)]
  have h : ((2 * f - n) * z - f * n) * (2 * (f - n) * y) - ((2 * f - n) * y - f * n) * (2 * (f - n) * z)
      = 2 * (f - n) * (f * n) * (z - y) := by ring
  have h2 : 0 < 2 * (f - n) * (f * n) := by have : 0 < f := by linarith
                                            positivity
  constructor
  · intro hh
    by_contra hc
    push Not at hc
    have := mul_nonneg h2.le (sub_nonneg.2 hc)
    nlinarith
  · intro hh
    have := mul_pos h2 (sub_pos.2 hh)
    linarith

example : ((3 / (3 - 1) * 2 + -(3 * 1) / (3 - 1)) / 2 + 1) / 2 < (((3 : ℚ) / (3 - 1) * 3 + -(3 * 1) / (3 - 1)) / 3 + 1) / 2 :=
  (win_mono (by norm_num) (by norm_num) (by norm_num) (by norm_num)).2 (by norm_num)

/-- The window depth reaches that of the cleared buffer exactly at `zfar`. -/
theorem win_far {n f z : K} (hn : 0 < n) (hf : n < f) (hz : 0 < z) :
    ((f / (f - n) * z + -(f * n) / (f - n)) / z + 1) / 2 < 1 ↔ z < f := by
  rw [win_eq hf hz]
  have h1 : 0 < f - n := by linarith
  rw [div_lt_one (by positivity)]
  constructor
  · intro h; nlinarith
  · intro h; nlinarith

/-- GL's near plane of the matrix `K` lies between `znear/2` and `znear`. -/
theorem near_bounds {n f : K} (hn : 0 < n) (hf : n < f) : n / 2 < f * n / (2 * f - n) ∧ f * n / (2 * f - n) < n := by
  have h : 0 < 2 * f - n := by linarith
  constructor
  · rw [lt_div_iff₀ h]; nlinarith
  · rw [div_lt_iff₀ h]; nlinarith

example : (1 : ℚ) / 2 < 100 * 1 / (2 * 100 - 1) ∧ (100 : ℚ) * 1 / (2 * 100 - 1) < 1 := near_bounds (by norm_num) (by norm_num)

/-- The GL triangle of a view-space triangle. -/
def glTri (H W : Nat) (t : Tri K) : Tri K := ⟨toGl H W t.p0, toGl H W t.p1, toGl H W t.p2⟩

/-- Fragments of the GL pipeline are exactly the hits in PyTorch3D's own conventions: same pixel centres, same weights, view depth. -/
theorem frag_hit {sx sy n f : K} (hn : 0 < n) (hf : n < f) {H W r c : Nat} (hr : r < H) (hc : c < W) (t : Tri K) (fr : Frag K) :
    frag (fov sx sy n f) (centre c W) (centre r H) (glTri H W t) = some fr ↔
      Faced sx sy n f H W t r c ∧ ∃ b, Hit sx sy n f H W t r c b ∧ fr.b0 = b.x ∧ fr.b1 = b.y ∧ fr.depth = (point t b).z ∧
        fr.win = ((f / (f - n) * (point t b).z + -(f * n) / (f - n)) / (point t b).z + 1) / 2 := by
  have hH : 0 < H := by omega
  have hW : 0 < W := by omega
  have hfn : 0 < f - n := by linarith
  have h2f : 0 < 2 * f - n := by linarith
  have hf0 : 0 < f := by linarith
  obtain ⟨px, py⟩ := squeeze_pos (K := K) hH hW
  have key : ∀ b : V3 K, b.x + b.y + b.z = 1 →
      comb b (clipOf (fov sx sy n f) (toGl H W t.p0)).z (clipOf (fov sx sy n f) (toGl H W t.p1)).z (clipOf (fov sx sy n f) (toGl H W t.p2)).z
        = f / (f - n) * (point t b).z + -(f * n) / (f - n) := by
    intro b hb
    simp only [clip_fov, comb, point, toGl]
    linear_combination (-(f * n) / (f - n)) * hb
  have keyw : ∀ b : V3 K, comb b (clipOf (fov sx sy n f) (toGl H W t.p0)).w (clipOf (fov sx sy n f) (toGl H W t.p1)).w
      (clipOf (fov sx sy n f) (toGl H W t.p2)).w = (point t b).z := by
    intro b
    simp only [clip_fov, comb, point, toGl]
  have keyx : ∀ b : V3 K, comb b (clipOf (fov sx sy n f) (toGl H W t.p0)).x (clipOf (fov sx sy n f) (toGl H W t.p1)).x
      (clipOf (fov sx sy n f) (toGl H W t.p2)).x = -(squeezeX H W * (sx * (point t b).x)) := by
    intro b
    simp only [clip_fov, comb, point, toGl]
    ring
  have keyy : ∀ b : V3 K, comb b (clipOf (fov sx sy n f) (toGl H W t.p0)).y (clipOf (fov sx sy n f) (toGl H W t.p1)).y
      (clipOf (fov sx sy n f) (toGl H W t.p2)).y = -(squeezeY H W * (sy * (point t b).y)) := by
    intro b
    simp only [clip_fov, comb, point, toGl]
    ring
  have keyd : ∀ b : V3 K, comb b (glTri H W t).p0.z (glTri H W t).p1.z (glTri H W t).p2.z = (point t b).z := by
    intro b
    simp only [glTri, toGl, point]
  have low : ∀ z : K, -z ≤ f / (f - n) * z + -(f * n) / (f - n) ↔ f * n / (2 * f - n) ≤ z := by
    intro z
    rw [div_le_iff₀ h2f]
    have e : f / (f - n) * z + -(f * n) / (f - n) + z = (z * (2 * f - n) - f * n) / (f - n) := by field_simp; ring
    constructor
    · intro h
      have : 0 ≤ (z * (2 * f - n) - f * n) / (f - n) := by rw [← e]; linarith
      rw [div_nonneg_iff] at this
      rcases this with h' | h' <;> linarith [h'.1, h'.2]
    · intro h
      have : 0 ≤ (z * (2 * f - n) - f * n) / (f - n) := div_nonneg (by linarith) hfn.le
      rw [← e] at this; linarith
  have high : ∀ z : K, f / (f - n) * z + -(f * n) / (f - n) ≤ z ↔ z ≤ f := by
    intro z
    have e : z - (f / (f - n) * z + -(f * n) / (f - n)) = (n * (f - z)) / (f - n) := by field_simp; ring
    constructor
    · intro h
      by_contra hc
      push Not at hc
      have : n * (f - z) / (f - n) < 0 := div_neg_of_neg_of_pos (by nlinarith) hfn
      rw [← e] at this; linarith
    · intro h
      have : 0 ≤ n * (f - z) / (f - n) := div_nonneg (mul_nonneg hn.le (by linarith)) hfn.le
      rw [← e] at this; linarith
  have nd : ∀ b : V3 K, 0 < (point t b).z → (ndc sx sy (point t b) = (Raster.pixToNdc (W - 1 - c) W H, Raster.pixToNdc (H - 1 - r) H W) ↔
      -(squeezeX H W * (sx * (point t b).x)) = centre c W * (point t b).z ∧ -(squeezeY H W * (sy * (point t b).y)) = centre r H * (point t b).z) := by
    intro b hz
    have ex := centre_x (K := K) (H := H) hH hc
    have ey := centre_y (K := K) (W := W) hW hr
    have cx : (centre c W : K) = -(squeezeX H W * Raster.pixToNdc (W - 1 - c) W H) := by rw [← ex]; ring
    have cy : (centre r H : K) = -(squeezeY H W * Raster.pixToNdc (H - 1 - r) H W) := by rw [← ey]; ring
    rw [cx, cy]
    unfold ndc
    rw [Prod.mk.injEq, div_eq_iff hz.ne', div_eq_iff hz.ne']
    constructor
    · rintro ⟨h1, h2⟩
      rw [h1, h2]
      exact ⟨by ring, by ring⟩
    · rintro ⟨h1, h2⟩
      exact ⟨mul_left_cancel₀ px.ne' (by linear_combination -h1), mul_left_cancel₀ py.ne' (by linear_combination -h2)⟩
  rw [frag_spec]
  constructor
  · rintro ⟨b, hb, b0, b1, b2, ⟨w1, w2, w3, w4⟩, e0, e1, e2⟩
    have hu := (bary_unique _ _ _ _ _ b hb b).1 rfl
    obtain ⟨u1, u2, u3⟩ := hu
    change comb b (clipOf (fov sx sy n f) (toGl H W t.p0)).x (clipOf (fov sx sy n f) (toGl H W t.p1)).x
      (clipOf (fov sx sy n f) (toGl H W t.p2)).x = centre c W * comb b (clipOf (fov sx sy n f) (toGl H W t.p0)).w
      (clipOf (fov sx sy n f) (toGl H W t.p1)).w (clipOf (fov sx sy n f) (toGl H W t.p2)).w at u2
    change comb b (clipOf (fov sx sy n f) (toGl H W t.p0)).y (clipOf (fov sx sy n f) (toGl H W t.p1)).y
      (clipOf (fov sx sy n f) (toGl H W t.p2)).y = centre r H * comb b (clipOf (fov sx sy n f) (toGl H W t.p0)).w
      (clipOf (fov sx sy n f) (toGl H W t.p1)).w (clipOf (fov sx sy n f) (toGl H W t.p2)).w at u3
    simp only [glTri] at w1 w2 w3 w4
    rw [key b u1] at w2 w3 w4
    rw [keyw b] at w1 w2 w3 w4
    rw [keyw b, keyx b] at u2
    rw [keyw b, keyy b] at u3
    rw [keyd b] at e2
    refine ⟨?_, b, ⟨b0, b1, b2, u1, (nd b w1).2 ⟨u2, u3⟩, (low _).1 w2, (high _).1 w3⟩, e0, e1, e2, w4⟩
    unfold Faced
    have hb' : bary (centre c W) (centre r H) (clipOf (fov sx sy n f) (toGl H W t.p0)) (clipOf (fov sx sy n f) (toGl H W t.p1))
      (clipOf (fov sx sy n f) (toGl H W t.p2)) = some b := hb
    rw [hb']; simp
  · rintro ⟨hF, b, ⟨b0, b1, b2, u1, hnd, l1, l2⟩, e0, e1, e2, e3⟩
    obtain ⟨b', hb'⟩ := Option.ne_none_iff_exists'.1 hF
    have hz : 0 < (point t b).z := lt_of_lt_of_le (by positivity) l1
    obtain ⟨u2, u3⟩ := (nd b hz).1 hnd
    have : b = b' := (bary_unique _ _ _ _ _ b' hb' b).2 ⟨u1, by rw [keyx, keyw]; exact u2, by rw [keyy, keyw]; exact u3⟩
    subst this
    refine ⟨b, hb', b0, b1, b2, ?_, e0, e1, by rw [keyd]; exact e2⟩
    simp only [glTri]
    rw [key b u1, keyw b]
    exact ⟨hz, (low _).2 l1, (high _).2 l2, e3⟩

theorem hit_pos {sx sy n f : K} (hn : 0 < n) (hf : n < f) {H W r c : Nat} {t : Tri K} {b : V3 K} (h : Hit sx sy n f H W t r c b) :
    0 < (point t b).z := by
  obtain ⟨-, -, -, -, -, l1, -⟩ := h
  have h2f : 0 < 2 * f - n := by linarith
  have hf0 : 0 < f := by linarith
  exact lt_of_lt_of_le (by positivity) l1

/-- The weights of a hit are determined by the pixel. -/
theorem hit_unique {sx sy n f : K} (hn : 0 < n) (hf : n < f) {H W r c : Nat} (hr : r < H) (hc : c < W) {t : Tri K}
    (hF : Faced sx sy n f H W t r c) {a b : V3 K} (ha : Hit sx sy n f H W t r c a) (hb : Hit sx sy n f H W t r c b) : a = b := by
  have f1 := (frag_hit (sx := sx) (sy := sy) hn hf hr hc t ⟨a.x, a.y, (point t a).z, _⟩).2 ⟨hF, a, ha, rfl, rfl, rfl, rfl⟩
  have f2 := (frag_hit (sx := sx) (sy := sy) hn hf hr hc t ⟨b.x, b.y, (point t b).z, _⟩).2 ⟨hF, b, hb, rfl, rfl, rfl, rfl⟩
  rw [f1] at f2
  simp only [Option.some.injEq, Frag.mk.injEq] at f2
  obtain ⟨-, -, -, sa, -⟩ := ha
  obtain ⟨-, -, -, sb, -⟩ := hb
  ext
  · exact f2.1
  · exact f2.2.1
  · have h1 := f2.1
    have h2 := f2.2.1
    linarith

theorem fix_bary {a b c : K} (ha : 0 ≤ a) (hb : 0 ≤ b) (hc : 0 ≤ c) (h : a + b + c = 1) :
    fix a = a ∧ fix b = b ∧ fix (1 - a - b) = c := by
  unfold fix
  rw [if_neg (by intro h; linarith), if_neg (by intro h; linarith), if_neg (by intro h; linarith)]
  exact ⟨rfl, rfl, by linarith⟩

/-- A pixel reports face `i` exactly when `i` is the nearest hit face (the first of equally near ones) before `zfar`; then barycentrics and zbuf are the weights and the
    view depth of the hit. -/
theorem raster_face {sx sy n f : K} (hn : 0 < n) (hf : n < f) {H W r c : Nat} (hr : r < H) (hc : c < W) (tris : List (Tri K)) (i : Nat) (o : Out K) :
    (raster (fov sx sy n f) H W tris r c = o ∧ o.face = i) ↔
      ∃ t b, tris[i]? = some t ∧ Faced sx sy n f H W t r c ∧ Hit sx sy n f H W t r c b ∧ o = ⟨i, b.x, b.y, b.z, (point t b).z⟩ ∧
        (point t b).z < f ∧
        ∀ j t' b', tris[j]? = some t' → Faced sx sy n f H W t' r c → Hit sx sy n f H W t' r c b' →
          (point t b).z ≤ (point t' b').z ∧ (j < i → (point t b).z < (point t' b').z) := by
  have hd := draw_spec (fov sx sy n f) (centre c W) (centre r H) (tris.map (glTri H W))
  have hp : raster (fov sx sy n f) H W tris r c = decode ((tris.map (glTri H W)).zipIdx.foldl (draw (fov sx sy n f) (centre c W) (centre r H)) cleared) := rfl
  obtain ⟨h1, -⟩ := hd
  have get : ∀ (k : Nat) (g : Tri K), (tris.map (glTri H W))[k]? = some g ↔ ∃ t, tris[k]? = some t ∧ glTri H W t = g := by
    intro k g; simp
  constructor
  · rintro ⟨ho, hi⟩
    rw [hp] at ho
    generalize (tris.map (glTri H W)).zipIdx.foldl (draw (fov sx sy n f) (centre c W) (centre r H)) cleared = px at h1 ho
    obtain ⟨d, q⟩ := px
    cases q with
    | none =>
      rw [decode_none] at ho
      subst ho
      simp only at hi
      omega
    | some q =>
      obtain ⟨k, fr⟩ := q
      have hk : k = i := by
        have : o.face = (k : ℤ) := by rw [← ho]; rfl
        rw [hi] at this; exact_mod_cast this.symm
      subst hk
      obtain ⟨g, g1, g2, g3, g4⟩ := (h1 k fr).1 rfl
      obtain ⟨t, t1, rfl⟩ := (get _ _).1 g1
      obtain ⟨hF, b, hb, e0, e1, e2, e3⟩ := (frag_hit hn hf hr hc t fr).1 g2
      have hz := hit_pos hn hf hb
      refine ⟨t, b, t1, hF, hb, ?_, ?_, ?_⟩
      · obtain ⟨b0, b1, b2, bs, -⟩ := hb
        obtain ⟨x1, x2, x3⟩ := fix_bary b0 b1 b2 bs
        rw [← ho]
        simp only [decode, rgba, e0, e1, e2, x1, x2, x3]
      · rw [e3] at g3; exact (win_far hn hf hz).1 g3
      · intro j t' b' hj hF' hb'
        have hz' := hit_pos hn hf hb'
        have ff := (frag_hit (sx := sx) (sy := sy) hn hf hr hc t' ⟨b'.x, b'.y, (point t' b').z, _⟩).2 ⟨hF', b', hb', rfl, rfl, rfl, rfl⟩
        have := g4 j _ _ ((get _ _).2 ⟨t', hj, rfl⟩) ff
        rw [e3] at this
        refine ⟨?_, fun hji => (win_mono hn hf hz hz').1 (this.2 hji)⟩
        by_contra hlt
        push Not at hlt
        have h' := (win_mono hn hf hz' hz).2 hlt
        exact absurd this.1 (not_le.2 h')
  · rintro ⟨t, b, t1, hF, hb, rfl, hfar, hmin⟩
    have hz := hit_pos hn hf hb
    have ff := (frag_hit (sx := sx) (sy := sy) hn hf hr hc t ⟨b.x, b.y, (point t b).z, _⟩).2 ⟨hF, b, hb, rfl, rfl, rfl, rfl⟩
    refine ⟨?_, rfl⟩
    have hp2 := (h1 i _).2 ⟨_, (get _ _).2 ⟨t, t1, rfl⟩, ff, (win_far hn hf hz).2 hfar, ?_⟩
    · rw [hp]
      generalize (tris.map (glTri H W)).zipIdx.foldl (draw (fov sx sy n f) (centre c W) (centre r H)) cleared = px at hp2
      obtain ⟨b0, b1, b2, bs, -⟩ := hb
      obtain ⟨x1, x2, x3⟩ := fix_bary b0 b1 b2 bs
      simp only [decode, rgba, hp2, x1, x2, x3]
    · intro j g fr' hj hfr'
      obtain ⟨t', hj', rfl⟩ := (get _ _).1 hj
      obtain ⟨hF', b', hb', -, -, -, e3⟩ := (frag_hit hn hf hr hc t' fr').1 hfr'
      have hz' := hit_pos hn hf hb'
      have := hmin j t' b' hj' hF' hb'
      rw [e3]
      refine ⟨?_, fun hji => (win_mono hn hf hz hz').2 (this.2 hji)⟩
      by_contra hlt
      push Not at hlt
      exact absurd this.1 (not_le.2 ((win_mono hn hf hz' hz).1 hlt))

/-- A pixel is background exactly when no face is hit before `zfar`; then everything is −1. -/
theorem raster_background {sx sy n f : K} (hn : 0 < n) (hf : n < f) {H W r c : Nat} (hr : r < H) (hc : c < W) (tris : List (Tri K)) :
    (raster (fov sx sy n f) H W tris r c = ⟨-1, -1, -1, -1, -1⟩ ↔
      ∀ t ∈ tris, Faced sx sy n f H W t r c → ∀ b, Hit sx sy n f H W t r c b → (point t b).z = f) ∧
    (raster (fov sx sy n f) H W tris r c = ⟨-1, -1, -1, -1, -1⟩ ∨ ∃ i < tris.length, (raster (fov sx sy n f) H W tris r c).face = i) := by
  obtain ⟨h1, h2, -⟩ := draw_spec (fov sx sy n f) (centre c W) (centre r H) (tris.map (glTri H W))
  have hp : raster (fov sx sy n f) H W tris r c = decode ((tris.map (glTri H W)).zipIdx.foldl (draw (fov sx sy n f) (centre c W) (centre r H)) cleared) := rfl
  have hback : ((tris.map (glTri H W)).zipIdx.foldl (draw (fov sx sy n f) (centre c W) (centre r H)) cleared).2 = none ↔
      ∀ t ∈ tris, Faced sx sy n f H W t r c → ∀ b, Hit sx sy n f H W t r c b → (point t b).z = f := by
    rw [h2]
    constructor
    · intro h t ht hF b hb
      have hz := hit_pos hn hf hb
      have ff := (frag_hit (sx := sx) (sy := sy) hn hf hr hc t ⟨b.x, b.y, (point t b).z, _⟩).2 ⟨hF, b, hb, rfl, rfl, rfl, rfl⟩
      have := h _ (List.mem_map.2 ⟨t, ht, rfl⟩) _ ff
      obtain ⟨-, -, -, -, -, -, l2⟩ := hb
      apply le_antisymm l2
      by_contra hlt
      push Not at hlt
      exact absurd this (not_le.2 ((win_far hn hf hz).2 hlt))
    · intro h g hg fr hfr
      obtain ⟨t, ht, rfl⟩ := List.mem_map.1 hg
      obtain ⟨hF, b, hb, -, -, -, e3⟩ := (frag_hit hn hf hr hc t fr).1 hfr
      have hz := hit_pos hn hf hb
      have := h t ht hF b hb
      by_contra hlt
      push Not at hlt
      rw [e3] at hlt
      have := (win_far hn hf hz).1 hlt
      linarith
  rw [hp, ← hback]
  generalize (tris.map (glTri H W)).zipIdx.foldl (draw (fov sx sy n f) (centre c W) (centre r H)) cleared = px at h1
  obtain ⟨d, q⟩ := px
  cases q with
  | none => rw [decode_none]; simp
  | some q =>
    obtain ⟨i, fr⟩ := q
    refine ⟨?_, .inr ⟨i, ?_, rfl⟩⟩
    · simp only [reduceCtorEq, iff_false]
      intro h
      have := congrArg Out.face h
      simp only [decode, rgba] at this
      omega
    · obtain ⟨g, g1, -⟩ := (h1 i fr).1 rfl
      have := (List.getElem?_eq_some_iff.1 g1).1
      simpa using this

/-- Nothing behind `zfar` is ever drawn, though `MeshRasterizer` has no far plane. -/
theorem far_dropped {sx sy n f : K} (hn : 0 < n) (hf : n < f) {H W r c : Nat} (hr : r < H) (hc : c < W) (tris : List (Tri K))
    (h : ∀ t ∈ tris, f ≤ t.p0.z ∧ f ≤ t.p1.z ∧ f ≤ t.p2.z) : raster (fov sx sy n f) H W tris r c = ⟨-1, -1, -1, -1, -1⟩ := by
  apply (raster_background hn hf hr hc tris).1.2
  rintro t ht - b ⟨b0, b1, b2, bs, -, -, l2⟩
  obtain ⟨z0, z1, z2⟩ := h t ht
  apply le_antisymm l2
  simp only [point, comb]
  nlinarith [mul_nonneg b0 (sub_nonneg.2 z0), mul_nonneg b1 (sub_nonneg.2 z1), mul_nonneg b2 (sub_nonneg.2 z2)]

/-- A 2 × 4 image, a slanted face before a flat one: the slanted one is seen. -/
example : raster (fov (1 : ℚ) 1 1 10) 2 4 [⟨⟨-30, -30, 5⟩, ⟨30, -30, 5⟩, ⟨0, 60, 5⟩⟩, ⟨⟨-30, -30, 2⟩, ⟨30, -30, 2⟩, ⟨0, 60, 4⟩⟩] 0 1 =
    ⟨1, 27 / 89, 31 / 89, 31 / 89, 240 / 89⟩ := by
  norm_num [raster, pixel, draw, frag, bary, clip_fov, toGl, squeezeX, squeezeY, centre, comb, cleared, decode, rgba, fix]

example : raster (fov (1 : ℚ) 1 1 4) 2 4 [⟨⟨-30, -30, 5⟩, ⟨30, -30, 5⟩, ⟨0, 60, 5⟩⟩] 0 1 = ⟨-1, -1, -1, -1, -1⟩ :=
  far_dropped (by norm_num) (by norm_num) (by norm_num) (by norm_num) _ (by intro t ht; simp only [List.mem_singleton] at ht; subst ht; norm_num)

end mats

/-! ## Batches -/

section batch
variable {M A B : Type}

/-- The loop of `_OpenGLMachinery.__call__`, `rasterizer_opengl.py:288-303`: `u` is the matrix held by the uniform. -/
def batchGo (render : M → A → B) (mats : List M) : Nat → M → List A → Except Err (List B)
  | _, _, [] => .ok []
  | k, u, a :: as =>
    if mats.length > 1 then
      match mats[k]? with
      | none => .error .index
      | some m => (batchGo render mats (k + 1) m as).map (render m a :: ·)
    else (batchGo render mats (k + 1) u as).map (render u a :: ·)

/-- The uniform set before the loop, `rasterizer_opengl.py:280-281`. -/
def startMat (u : M) (mats : List M) : M := match mats with
  | [m] => m
  | _ => u

/-- `_OpenGLMachinery.__call__`, `rasterizer_opengl.py:276-310`, with `u` left in the uniform by earlier calls. -/
def batch (render : M → A → B) (u : M) (mats : List M) (meshes : List A) : Except Err (List B) :=
  batchGo render mats 0 (startMat u mats) meshes

theorem batchGo_one (render : M → A → B) (m u : M) (l : List A) : ∀ k, batchGo render [m] k u l = .ok (l.map (render u)) := by
  induction l with
  | nil => intro k; rfl
  | cons a as ih =>
    intro k
    unfold batchGo
    rw [if_neg (by simp), ih]
    rfl

/-- One camera: every mesh is rendered with it, whatever the uniform held before. -/
theorem batch_shared (render : M → A → B) (u m : M) (meshes : List A) : batch render u [m] meshes = .ok (meshes.map (render m)) :=
  batchGo_one render m m meshes 0

example : batch (fun (m a : ℕ) => 10 * m + a) 7 [3] [1, 2] = .ok [31, 32] := by rw [batch_shared]; rfl

theorem batchGo_each (render : M → A → B) (mats : List M) (hm : 1 < mats.length) (meshes : List A) : ∀ (k : Nat) (u : M), k ≤ mats.length →
    batchGo render mats k u meshes =
      if meshes.length + k ≤ mats.length then .ok (List.zipWith render (mats.drop k) meshes) else .error .index := by
  induction meshes with
  | nil => intro k u hk; simp [batchGo, hk]
  | cons a as ih =>
    intro k u hk
    unfold batchGo
    rw [if_pos hm]
    rcases Nat.lt_or_ge k mats.length with h | h
    · rw [List.getElem?_eq_getElem h]
      dsimp only
      rw [ih (k + 1) _ h, List.drop_eq_getElem_cons h]
      by_cases hc : as.length + (k + 1) ≤ mats.length
      · rw [if_pos hc, if_pos (by simp only [List.length_cons]; omega)]; rfl
      · rw [if_neg hc, if_neg (by simp only [List.length_cons]; omega)]; rfl
    · rw [List.getElem?_eq_none h, if_neg (by simp only [List.length_cons]; omega)]

/-- Several cameras: mesh `b` is rendered with camera `b`; too few cameras raise an IndexError and surplus cameras are ignored in silence. -/
theorem batch_each (render : M → A → B) (u : M) (mats : List M) (hm : 1 < mats.length) (meshes : List A) :
    batch render u mats meshes = if meshes.length ≤ mats.length then .ok (List.zipWith render mats meshes) else .error .index := by
  unfold batch
  rw [batchGo_each render mats hm meshes 0 _ (Nat.zero_le _)]
  simp

example : batch (fun (m a : ℕ) => 10 * m + a) 7 [3, 4, 5] [1, 2] = .ok [31, 42] := by rw [batch_each _ _ _ (by decide)]; rfl
example : batch (fun (m a : ℕ) => 10 * m + a) 7 [3, 4] [1, 2, 6] = .error .index := by rw [batch_each _ _ _ (by decide)]; rfl

/-- The face ids of a batch are those of each mesh alone: `faces_packed` of a one-mesh slice (`rasterizer_opengl.py:459-460`), nothing is added when concatenating
    (`rasterizer_opengl.py:305-310`).  `MeshRasterizer` reports this number instead. -/
def packedId (meshes : List (List A)) (b i : Nat) : Nat := ((meshes.take b).map List.length).sum + i

/-- The packed id finds the face in the packed list. -/
theorem packed_face (meshes : List (List A)) : ∀ (b i : Nat) (l : List A), meshes[b]? = some l → i < l.length → meshes.flatten[packedId meshes b i]? = l[i]? := by
  induction meshes with
  | nil => intro b i l h; simp at h
  | cons a as ih =>
    intro b i l h hi
    cases b with
    | zero =>
      simp only [List.getElem?_cons_zero, Option.some.injEq] at h
      subst h
      simp [packedId, List.getElem?_append_left hi]
    | succ b =>
      simp only [List.getElem?_cons_succ] at h
      have := ih b i l h hi
      simp only [packedId, List.take_succ_cons, List.map_cons, List.sum_cons, List.flatten_cons] at this ⊢
      rw [List.getElem?_append_right (by omega), ← this]
      congr 1
      omega

/-- The reported id is the packed id exactly for meshes with no face before them. -/
theorem local_packed (meshes : List (List A)) (b i : Nat) : i = packedId meshes b i ↔ ∀ l ∈ meshes.take b, l = [] := by
  unfold packedId
  have : ((meshes.take b).map List.length).sum = 0 ↔ ∀ l ∈ meshes.take b, l = [] := by
    rw [List.sum_eq_zero_iff]
    simp only [List.mem_map, forall_exists_index, and_imp, forall_apply_eq_imp_iff₂, List.length_eq_zero_iff]
  rw [← this]; omega

/-- A shader that looks the reported id up in the packed faces gets a face of the first mesh. -/
theorem shader_first (a : List A) (as : List (List A)) (i : Nat) (h : i < a.length) : (a :: as).flatten[i]? = a[i]? := by
  rw [List.flatten_cons, List.getElem?_append_left h]

example : packedId [[10, 11], [20, 21, 22]] 1 1 = 3 ∧ ([[10, 11], [20, 21, 22]] : List (List ℕ)).flatten[1]? = some 11 := by decide

end batch

/-! ## The buffer of a device -/

/-- A rasterizer call: the device, `max_faces_opengl` of the rasterizer, the number of faces of the mesh. -/
structure Call where
  dev : Nat
  maxFaces : Nat
  faces : Nat
  deriving DecidableEq, Repr

/-- `initialize_device_data`, `rasterizer_opengl.py:312-367` with `get_context_data`/`set_context_data` (`opengl_utils.py:366-395`): the capacity of the buffer in use. -/
def initDevice (st : List (Nat × Nat)) (c : Call) : Nat × List (Nat × Nat) :=
  match st.lookup c.dev with
  | none => (c.maxFaces, (c.dev, c.maxFaces) :: st)
  | some cap => (cap, st)

/-- `_torch_to_opengl`, `opengl_utils.py:424-445`: the copy does not compare sizes; `none` is a write beyond the buffer. -/
def copyFaces (cap faces : Nat) : Option Unit := if faces ≤ cap then some () else none

/-- The copies of a sequence of calls. -/
def calls : List (Nat × Nat) → List Call → List (Option Unit)
  | _, [] => []
  | st, c :: cs => copyFaces (initDevice st c).1 c.faces :: calls (initDevice st c).2 cs

/-- Capacity seen by a device: that stored, else that of the first call on it. -/
def firstCap (st : List (Nat × Nat)) (cs : List Call) (d : Nat) : Option Nat :=
  (st.lookup d).or ((cs.find? (fun c => c.dev = d)).map Call.maxFaces)

theorem calls_go : ∀ (cs : List Call) (st : List (Nat × Nat)) (k : Nat) (c : Call), cs[k]? = some c →
    ∃ cap, firstCap st cs c.dev = some cap ∧ (calls st cs)[k]? = some (copyFaces cap c.faces) := by
  intro cs
  induction cs with
  | nil => intro st k c h; simp at h
  | cons a as ih =>
    intro st k c h
    cases k with
    | zero =>
      simp only [List.getElem?_cons_zero, Option.some.injEq] at h
      subst h
      unfold calls initDevice firstCap
      cases hl : st.lookup a.dev with
      | none => exact ⟨a.maxFaces, by simp, by simp⟩
      | some cap => exact ⟨cap, by simp, by simp⟩
    | succ k =>
      simp only [List.getElem?_cons_succ] at h
      obtain ⟨cap, h1, h2⟩ := ih (initDevice st a).2 k c h
      refine ⟨cap, ?_, by unfold calls; simpa using h2⟩
      rw [← h1]
      unfold firstCap initDevice
      by_cases hd : a.dev = c.dev
      · cases hl : st.lookup a.dev with
        | none =>
          have hl' : st.lookup c.dev = none := hd ▸ hl
          simp [hd, hl']
        | some cap =>
          have hl' : st.lookup c.dev = some cap := hd ▸ hl
          simp [hl']
      · have hd' : (c.dev == a.dev) = false := by simp; exact fun h => hd h.symm
        cases hl : st.lookup a.dev with
        | none => simp [hd, hd', List.lookup_cons]
        | some cap => simp [hd]

/-- The first rasterizer used on a device fixes the buffer for the life of the process: a later call overruns it exactly when its mesh has more faces than that first
    rasterizer's `max_faces_opengl`, whatever its own setting. -/
theorem calls_first (cs : List Call) (k : Nat) (c : Call) (h : cs[k]? = some c) :
    ∃ c0, cs.find? (fun c' => c'.dev = c.dev) = some c0 ∧ ((calls [] cs)[k]? = some (some ()) ↔ c.faces ≤ c0.maxFaces) ∧
      ((calls [] cs)[k]? = some none ↔ c0.maxFaces < c.faces) := by
  obtain ⟨cap, h1, h2⟩ := calls_go cs [] k c h
  unfold firstCap at h1
  simp only [List.lookup_nil, Option.none_or, Option.map_eq_some_iff] at h1
  obtain ⟨c0, h3, rfl⟩ := h1
  refine ⟨c0, h3, ?_⟩
  rw [h2]
  unfold copyFaces
  split_ifs with hc
  · simp; omega
  · simp; omega

example : calls [] [⟨0, 100, 50⟩, ⟨1, 1000, 200⟩, ⟨0, 1000, 200⟩] = [some (), some (), none] := by decide

end P3D.GlRaster
