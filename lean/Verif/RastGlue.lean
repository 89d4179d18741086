/-
`MeshRasterizer` and `PointsRasterizer` (`renderer/mesh/rasterizer.py`, `renderer/points/rasterizer.py`): choice of cameras, vertices handed to the rasterizer, defaults
inferred from the camera, and what a fragment of the rasterizer (modelled in RasterMeshes) means in the world.

A camera is its world-to-view transform, its projection of view coordinates to NDC, `is_perspective()` and `get_znear()`.  Not modelled: the OpenGL rasterizer, devices,
`eps`, cameras given by keyword one parameter at a time.
-/
import Mathlib.Tactic.Linarith
import Mathlib.Tactic.LinearCombination
import Mathlib.Tactic.FieldSimp
import Mathlib.Tactic.Ring
import Verif.Mat3
import Verif.RasterMeshes

set_option linter.unusedSectionVars false

namespace P3D.RastGlue

open Geom Raster

variable {K : Type} [Field K] [LinearOrder K] [IsStrictOrderedRing K]

inductive Err | value
deriving DecidableEq, Repr

/-! ### The code -/

/-- The projections of the camera classes, from view coordinates to NDC x and y: `PerspectiveCameras`, `FoVPerspectiveCameras` and `BlenderCamera` are of the first form,
the orthographic ones of the second. -/
inductive Proj (K : Type)
  | persp (fx fy px py : K)
  | ortho (fx fy px py : K)

def Proj.apply (p : Proj K) (v : V3 K) : V2 K :=
  match p with
  | .persp fx fy px py => ⟨fx * v.x / v.z + px, fy * v.y / v.z + py⟩
  | .ortho fx fy px py => ⟨fx * v.x + px, fy * v.y + py⟩

structure Cam (K : Type) where
  r : M3 K
  t : V3 K
  proj : Proj K
  isPersp : Bool
  znear : Option K

def Cam.view (c : Cam K) (p : V3 K) : V3 K := M3.vecMul p c.r + c.t

/-- `transform` on one vertex (rasterizer.py:196-215, points/rasterizer.py:124-143): NDC x and y, view z. -/
def vertex (c : Cam K) (p : V3 K) : V3 K :=
  let v := c.view p
  let q := c.proj.apply v
  ⟨q.x, q.y, v.z⟩

/-- `transform` of `MeshRasterizer` (lines 171-217): `cameras` of the call if that keyword is given (even as `None`), otherwise those of the object; one for all meshes
or one each. -/
def transform (kw : Option (Option (List (Cam K)))) (self : Option (List (Cam K))) (meshes : List (List (V3 K))) : Except Err (List (List (V3 K))) :=
  match kw.getD self with
  | none => .error .value
  | some cams =>
    if cams.length ≠ 1 ∧ cams.length ≠ meshes.length then .error .value
    else .ok ((meshes.zip (if cams.length = 1 then (List.replicate meshes.length cams).flatten else cams)).map fun m => m.1.map (vertex m.2))

/-- The settings that are inferred if `None`. -/
structure Settings (K : Type) where
  blur : K
  persp : Option Bool
  clip : Option Bool
  zclip : Option K

def minOf (l : List K) : Option K :=
  match l with
  | [] => none
  | a :: l => some (l.foldl min a)

/-- What `forward` (lines 227-255) passes to `rasterize_meshes`: perspective correction, clipping of barycentric coordinates, clipping plane. The class of the camera decides
`is_perspective`; `znear` of the batch is its minimum. -/
def resolve (s : Settings K) (isPersp : Bool) (znear : Option (List K)) : Bool × Bool × Option K :=
  let persp := s.persp.getD isPersp
  let clip := s.clip.getD (decide (0 < s.blur))
  let z := match s.zclip with
    | some z => some z
    | none => if persp then (znear.bind minOf).map fun z => z / 2 else none
  (persp, clip, z)

/-! ### Cameras and meshes -/

/-- ValueError if there are no cameras, also if `cameras=None` is passed although the object has some, or neither one nor one for each mesh. -/
theorem transform_error (kw : Option (Option (List (Cam K)))) (self : Option (List (Cam K))) (meshes : List (List (V3 K))) : transform kw self meshes = .error .value ↔
    kw = some none ∨ (kw = none ∧ self = none) ∨
      ∃ cams, (kw = some (some cams) ∨ (kw = none ∧ self = some cams)) ∧ cams.length ≠ 1 ∧ cams.length ≠ meshes.length := by
  unfold transform
  rcases kw with _ | _ | cams
  · rcases self with _ | cams
    · simp
    · simp only [Option.getD_none, Option.some.injEq, reduceCtorEq, false_or, true_and, and_false, exists_eq_left']
      by_cases h : cams.length ≠ 1 ∧ cams.length ≠ meshes.length
      · rw [if_pos h]
        simpa using h
      · rw [if_neg h]
        simpa using h
  · simp
  · simp only [Option.getD_some, Option.some.injEq, reduceCtorEq, false_and, or_false, false_or, exists_eq_left']
    by_cases h : cams.length ≠ 1 ∧ cams.length ≠ meshes.length
    · rw [if_pos h]
      simpa using h
    · rw [if_neg h]
      simpa using h

/-- Cameras of the call take precedence; one camera is used for all meshes, otherwise mesh `i` has camera `i`. -/
theorem transform_mesh (kw : Option (Option (List (Cam K)))) (self : Option (List (Cam K))) (meshes : List (List (V3 K))) (cams : List (Cam K)) (hk : kw = some (some cams) ∨ (kw = none ∧ self = some cams))
    (out : List (List (V3 K))) (h : transform kw self meshes = .ok out) : out.length = meshes.length ∧
      ∀ (i : Nat) (m : List (V3 K)), meshes[i]? = some m → ∃ c, (cams[i]? = some c ∨ cams = [c]) ∧ out[i]? = some (m.map (vertex c)) := by
  have hc : kw.getD self = some cams := by
    rcases hk with rfl | ⟨rfl, rfl⟩ <;> rfl
  unfold transform at h
  rw [hc] at h
  dsimp only at h
  by_cases hb : cams.length ≠ 1 ∧ cams.length ≠ meshes.length
  · rw [if_pos hb] at h
    cases h
  rw [if_neg hb] at h
  have h := Except.ok.inj h
  subst h
  by_cases h1 : cams.length = 1
  · obtain ⟨c, rfl⟩ := List.length_eq_one_iff.mp h1
    rw [if_pos h1]
    have e : (List.replicate meshes.length [c]).flatten = List.replicate meshes.length c := by
      generalize meshes.length = n
      induction n with
      | zero => rfl
      | succ n ih => rw [List.replicate_succ, List.flatten_cons, ih, List.replicate_succ, List.singleton_append]
    rw [e]
    refine ⟨by simp, ?_⟩
    intro i m hm
    have hi : i < meshes.length := by
      by_contra hcon
      rw [List.getElem?_eq_none (by omega)] at hm
      cases hm
    refine ⟨c, Or.inr rfl, ?_⟩
    rw [List.getElem?_map, List.getElem?_zip_eq_some (z := (m, c)) |>.mpr ⟨hm, by rw [List.getElem?_replicate, if_pos hi]⟩]
    rfl
  · rw [if_neg h1]
    have h2 : cams.length = meshes.length := by
      by_contra hcon
      exact hb ⟨h1, hcon⟩
    refine ⟨by simp [h2], ?_⟩
    intro i m hm
    have hi : i < meshes.length := by
      by_contra hcon
      rw [List.getElem?_eq_none (by omega)] at hm
      cases hm
    have hci : cams[i]? = some (cams[i]'(by omega)) := List.getElem?_eq_getElem (by omega)
    refine ⟨_, Or.inl hci, ?_⟩
    rw [List.getElem?_map, List.getElem?_zip_eq_some (z := (m, _)) |>.mpr ⟨hm, hci⟩]
    rfl

/-- What is passed on by default: correction exactly for classes that call themselves perspective, a clipping plane at half the smallest near plane only for those of them that
have one. -/
theorem resolve_default (s : Settings K) (hp : s.persp = none) (hz : s.zclip = none) (hc : s.clip = none) (a : K) (l : List K) :
    resolve s true none = (true, decide (0 < s.blur), none) ∧
    (∃ m, resolve s true (some (a :: l)) = (true, decide (0 < s.blur), some (m / 2)) ∧ m ∈ a :: l ∧ ∀ z ∈ a :: l, m ≤ z) ∧
    ∀ zn, resolve s false zn = (false, decide (0 < s.blur), none) := by
  refine ⟨by simp [resolve, hp, hz, hc], ⟨l.foldl min a, by simp [resolve, hp, hz, hc, minOf], ?_⟩, fun zn => by simp [resolve, hp, hz, hc]⟩
  have key : ∀ (l : List K) (a : K), l.foldl min a ∈ a :: l ∧ ∀ z ∈ a :: l, l.foldl min a ≤ z := by
    intro l
    induction l with
    | nil => simp
    | cons b l ih =>
      intro a
      obtain ⟨h1, h2⟩ := ih (min a b)
      rw [List.foldl_cons]
      constructor
      · rcases List.mem_cons.mp h1 with h | h
        · rw [h]
          rcases min_choice a b with h | h <;> rw [h] <;> simp
        · exact List.mem_cons_of_mem _ (List.mem_cons_of_mem _ h)
      · intro z hz
        have hm := h2 (min a b) List.mem_cons_self
        rcases List.mem_cons.mp hz with rfl | hz
        · exact le_trans hm (min_le_left _ _)
        · rcases List.mem_cons.mp hz with rfl | hz
          · exact le_trans hm (min_le_right _ _)
          · exact h2 z (List.mem_cons_of_mem _ hz)
  exact key l a

/-! ### What fragments mean -/

/-- A face as the rasterizer gets it. -/
def face (c : Cam K) (idx : Nat) (nbr : ℤ) (p0 p1 p2 : V3 K) : FItem K := ⟨idx, vertex c p0, vertex c p1, vertex c p2, nbr⟩

/-- Weighted sum of three points. -/
def mix (w p0 p1 p2 : V3 K) : V3 K := w.x • p0 + w.y • p1 + w.z • p2

theorem view_mix (c : Cam K) (w p0 p1 p2 : V3 K) (hw : w.x + w.y + w.z = 1) : c.view (mix w p0 p1 p2) = mix w (c.view p0) (c.view p1) (c.view p2) := by
  have : w.z = 1 - w.x - w.y := by linarith
  ext <;> simp [Cam.view, mix, M3.vecMul, this] <;> ring

theorem hit_bary {cfg : RCfg K} {xf yf : K} {it : FItem K} {df : K × Frag K} (h : faceHit cfg xf yf it = some df) :
    df.2.bary = faceBaryClip cfg it xf yf ∧ df.2.z = faceDepth cfg it xf yf ∧ kEps < |edge (xy it.v2) (xy it.v0) (xy it.v1)| ∧
      kEps ≤ it.v0.z ∧ kEps ≤ it.v1.z ∧ kEps ≤ it.v2.z := by
  have he : edge (xy it.v0) (xy it.v1) (xy it.v2) = edge (xy it.v2) (xy it.v0) (xy it.v1) := by simp only [edge]; ring
  simp only [faceHit] at h
  split_ifs at h with h1 h2 h3 h4 h5 h6 <;> simp only [Option.some.injEq] at h <;> subst h <;> refine ⟨rfl, rfl, ?_, ?_⟩
  all_goals first
    | (rw [← he, lt_abs]
       by_contra hcon
       push Not at hcon
       exact h2 ⟨hcon.1, by linarith [hcon.2]⟩)
    | (simp only [outsideBox, decide_eq_true_eq, not_or, not_lt] at h3
       have := h3.2.2.2.2
       exact ⟨this.trans (min_le_left _ _), this.trans ((min_le_right _ _).trans (min_le_left _ _)), this.trans ((min_le_right _ _).trans (min_le_right _ _))⟩)

/-- The factor by which barycentric coordinates miss the sum one. -/
theorem ratio_bound {a : K} (h : kEps < |a|) : 1 / 2 < a / (a + kEps) := by
  have he := kEps_pos (K := K)
  rcases lt_abs.mp h with h1 | h1
  · rw [lt_div_iff₀ (by linarith)]
    linarith
  · rw [lt_div_iff_of_neg (by linarith)]
    linarith

/-- Perspective cameras with correction and without clipped coordinates: if the pixel is inside the projected face, the fragment's coordinates sum to one and belong to the point of
the face in the world that projects exactly to the centre of the pixel, and its depth is that point's; so vertex attributes that are affine on the face are those of the point
seen. -/
theorem fragment_point (c : Cam K) (fx fy px py : K) (hc : c.proj = .persp fx fy px py) (cfg : RCfg K) (hp : cfg.persp = true) (hcl : cfg.clip = false)
    (idx : Nat) (nbr : ℤ) (p0 p1 p2 : V3 K) (xf yf : K) (df : K × Frag K) (h : faceHit cfg xf yf (face c idx nbr p0 p1 p2) = some df)
    (hin : InTri ⟨xf, yf⟩ (xy (vertex c p0)) (xy (vertex c p1)) (xy (vertex c p2)))
    (h0 : 1 / 5000 ≤ (c.view p0).z) (h1 : 1 / 5000 ≤ (c.view p1).z) (h2 : 1 / 5000 ≤ (c.view p2).z) :
    let w := df.2.bary
    let q := mix w p0 p1 p2
    (0 < w.x ∧ 0 < w.y ∧ 0 < w.z) ∧ w.x + w.y + w.z = 1 ∧ c.proj.apply (c.view q) = ⟨xf, yf⟩ ∧ (c.view q).z = df.2.z := by
  obtain ⟨hb, hz, hA, -⟩ := hit_bary h
  intro w q
  simp only [faceDepth, faceBaryClip, hcl, Bool.false_eq_true, if_false, faceBary, hp, if_true] at hb hz
  have e0 : (face c idx nbr p0 p1 p2).v0 = vertex c p0 := rfl
  have e1 : (face c idx nbr p0 p1 p2).v1 = vertex c p1 := rfl
  have e2 : (face c idx nbr p0 p1 p2).v2 = vertex c p2 := rfl
  rw [e0, e1, e2] at hb hz hA
  have hsum := bary_sum (⟨xf, yf⟩ : V2 K) (xy (vertex c p0)) (xy (vertex c p1)) (xy (vertex c p2))
  have hcomb := bary_combine (⟨xf, yf⟩ : V2 K) (xy (vertex c p0)) (xy (vertex c p1)) (xy (vertex c p2))
  obtain ⟨hbx, hby, hbz⟩ := (bary_inside (p := (⟨xf, yf⟩ : V2 K)) hA).mpr hin
  have hr := ratio_bound hA
  generalize edge (xy (vertex c p2)) (xy (vertex c p0)) (xy (vertex c p1)) / (edge (xy (vertex c p2)) (xy (vertex c p0)) (xy (vertex c p1)) + kEps) = r at *
  generalize bary (⟨xf, yf⟩ : V2 K) (xy (vertex c p0)) (xy (vertex c p1)) (xy (vertex c p2)) = b at *
  have hx := congrArg V2.x hcomb
  have hy := congrArg V2.y hcomb
  have z0 : (vertex c p0).z = (c.view p0).z := rfl
  have z1 : (vertex c p1).z = (c.view p1).z := rfl
  have z2 : (vertex c p2).z = (c.view p2).z := rfl
  rw [z0, z1, z2] at hb hz
  simp only [xy, V2.add_x, V2.add_y, V2.smul_x, V2.smul_y, vertex, hc, Proj.apply] at hx hy
  have g0 : (0 : K) < (c.view p0).z := by linarith
  have g1 : (0 : K) < (c.view p1).z := by linarith
  have g2 : (0 : K) < (c.view p2).z := by linarith
  have hden : kEps ≤ b.x * (c.view p1).z * (c.view p2).z + b.y * (c.view p0).z * (c.view p2).z + b.z * (c.view p0).z * (c.view p1).z := by
    have m : ∀ a b : K, 1 / 5000 ≤ a → 1 / 5000 ≤ b → (1 / 5000) * (1 / 5000) ≤ a * b := fun a b ha hb => mul_le_mul ha hb (by norm_num) (by linarith)
    have m0 := mul_le_mul_of_nonneg_left (m _ _ h1 h2) hbx.le
    have m1 := mul_le_mul_of_nonneg_left (m _ _ h0 h2) hby.le
    have m2 := mul_le_mul_of_nonneg_left (m _ _ h0 h1) hbz.le
    have : (kEps : K) ≤ (1 / 2) * ((1 / 5000) * (1 / 5000)) := by
      unfold kEps
      norm_num
    have hs2 : (1 / 2 : K) * ((1 / 5000) * (1 / 5000)) ≤ (b.x + b.y + b.z) * ((1 / 5000) * (1 / 5000)) := by
      apply mul_le_mul_of_nonneg_right _ (by norm_num)
      rw [hsum]
      exact hr.le
    nlinarith
  obtain ⟨hs, hw, hw1, hw2⟩ := perspCorrect_spec g0.ne' g1.ne' g2.ne' hden
  obtain ⟨s0, s1, s2⟩ := perspCorrect_sign (b := b) g0 g1 g2
  have hwe : w = perspCorrect b (c.view p0).z (c.view p1).z (c.view p2).z := hb
  rw [← hwe] at hw hw1 hw2 s0 s1 s2
  have hq : c.view q = mix w (c.view p0) (c.view p1) (c.view p2) := view_mix c w p0 p1 p2 hw1
  have hqz : (c.view q).z = df.2.z := by
    rw [hz, hq, ← hwe]
    simp [mix]
  refine ⟨⟨s0.mpr hbx, s1.mpr hby, s2.mpr hbz⟩, hw1, ?_, hqz⟩
  rw [hc, Proj.apply, hq]
  have hr0 : r ≠ 0 := by linarith
  have wx : w.x = (b.x / (c.view p0).z + b.y / (c.view p1).z + b.z / (c.view p2).z)⁻¹ * (b.x / (c.view p0).z) := by rw [hw]; rfl
  have wy : w.y = (b.x / (c.view p0).z + b.y / (c.view p1).z + b.z / (c.view p2).z)⁻¹ * (b.y / (c.view p1).z) := by rw [hw]; rfl
  have wz : w.z = (b.x / (c.view p0).z + b.y / (c.view p1).z + b.z / (c.view p2).z)⁻¹ * (b.z / (c.view p2).z) := by rw [hw]; rfl
  generalize hsg : b.x / (c.view p0).z + b.y / (c.view p1).z + b.z / (c.view p2).z = s at *
  have hwz : w.x * (c.view p0).z + w.y * (c.view p1).z + w.z * (c.view p2).z = r / s := by
    rw [eq_div_iff hs, hw2, hsum]
  have key : ∀ (f o t a0 a1 a2 : K), b.x * (f * a0 / (c.view p0).z + o) + b.y * (f * a1 / (c.view p1).z + o) + b.z * (f * a2 / (c.view p2).z + o) = r * t →
      f * (w.x * a0 + w.y * a1 + w.z * a2) / (r / s) + o = t := by
    intro f o t a0 a1 a2 ht
    have e : w.x * a0 + w.y * a1 + w.z * a2 = s⁻¹ * (b.x * (a0 / (c.view p0).z) + b.y * (a1 / (c.view p1).z) + b.z * (a2 / (c.view p2).z)) := by
      rw [wx, wy, wz]
      ring
    rw [e]
    have e2 : f * (b.x * (a0 / (c.view p0).z) + b.y * (a1 / (c.view p1).z) + b.z * (a2 / (c.view p2).z)) = r * t - o * r := by
      rw [← ht]
      linear_combination (-o) * hsum
    have e3 : f * (s⁻¹ * (b.x * (a0 / (c.view p0).z) + b.y * (a1 / (c.view p1).z) + b.z * (a2 / (c.view p2).z))) / (r / s) = (r * t - o * r) / r := by
      rw [← e2]
      field_simp
    rw [e3]
    field_simp
    ring
  have mx : (mix w (c.view p0) (c.view p1) (c.view p2)).x = w.x * (c.view p0).x + w.y * (c.view p1).x + w.z * (c.view p2).x := by simp [mix]
  have my : (mix w (c.view p0) (c.view p1) (c.view p2)).y = w.x * (c.view p0).y + w.y * (c.view p1).y + w.z * (c.view p2).y := by simp [mix]
  have mz : (mix w (c.view p0) (c.view p1) (c.view p2)).z = w.x * (c.view p0).z + w.y * (c.view p1).z + w.z * (c.view p2).z := by simp [mix]
  rw [mx, my, mz, hwz]
  ext
  · exact key _ _ _ _ _ _ hx
  · exact key _ _ _ _ _ _ hy

/-- Orthographic cameras, without correction: the coordinates are those of the point of the face that projects to the pixel, up to the factor `area / (area + 1e-8)`. -/
theorem fragment_ortho (c : Cam K) (fx fy px py : K) (hc : c.proj = .ortho fx fy px py) (cfg : RCfg K) (hp : cfg.persp = false) (hcl : cfg.clip = false)
    (idx : Nat) (nbr : ℤ) (p0 p1 p2 : V3 K) (xf yf : K) (df : K × Frag K) (h : faceHit cfg xf yf (face c idx nbr p0 p1 p2) = some df) :
    ∃ r w, 1 / 2 < r ∧ df.2.bary = r • w ∧ w.x + w.y + w.z = 1 ∧ c.proj.apply (c.view (mix w p0 p1 p2)) = ⟨xf, yf⟩ ∧ df.2.z = r * (c.view (mix w p0 p1 p2)).z := by
  obtain ⟨hb, hz, hA, -⟩ := hit_bary h
  simp only [faceDepth, faceBaryClip, hcl, Bool.false_eq_true, if_false, faceBary, hp] at hb hz
  have e0 : (face c idx nbr p0 p1 p2).v0 = vertex c p0 := rfl
  have e1 : (face c idx nbr p0 p1 p2).v1 = vertex c p1 := rfl
  have e2 : (face c idx nbr p0 p1 p2).v2 = vertex c p2 := rfl
  rw [e0, e1, e2] at hb hz hA
  have hsum := bary_sum (⟨xf, yf⟩ : V2 K) (xy (vertex c p0)) (xy (vertex c p1)) (xy (vertex c p2))
  have hcomb := bary_combine (⟨xf, yf⟩ : V2 K) (xy (vertex c p0)) (xy (vertex c p1)) (xy (vertex c p2))
  have hr := ratio_bound hA
  generalize edge (xy (vertex c p2)) (xy (vertex c p0)) (xy (vertex c p1)) / (edge (xy (vertex c p2)) (xy (vertex c p0)) (xy (vertex c p1)) + kEps) = r at *
  generalize bary (⟨xf, yf⟩ : V2 K) (xy (vertex c p0)) (xy (vertex c p1)) (xy (vertex c p2)) = b at *
  have hr0 : r ≠ 0 := by linarith
  have hx := congrArg V2.x hcomb
  have hy := congrArg V2.y hcomb
  simp only [xy, V2.add_x, V2.add_y, V2.smul_x, V2.smul_y, vertex, hc, Proj.apply] at hx hy
  have hw1 : (r⁻¹ • b).x + (r⁻¹ • b).y + (r⁻¹ • b).z = 1 := by
    simp only [V3.smul_x, V3.smul_y, V3.smul_z]
    rw [← mul_add, ← mul_add, hsum, inv_mul_cancel₀ hr0]
  refine ⟨r, r⁻¹ • b, hr, ?_, hw1, ?_, ?_⟩
  · rw [hb]
    ext <;> simp [hr0]
  · rw [view_mix c _ p0 p1 p2 hw1, hc, Proj.apply]
    have key : ∀ (f o t a0 a1 a2 : K), b.x * (f * a0 + o) + b.y * (f * a1 + o) + b.z * (f * a2 + o) = r * t →
        f * (r⁻¹ * b.x * a0 + r⁻¹ * b.y * a1 + r⁻¹ * b.z * a2) + o = t := by
      intro f o t a0 a1 a2 ht
      have : f * (b.x * a0 + b.y * a1 + b.z * a2) + o * r = r * t := by
        rw [← ht]
        linear_combination (-o) * hsum
      field_simp
      linear_combination this
    ext
    · simpa [mix] using key _ _ _ _ _ _ hx
    · simpa [mix] using key _ _ _ _ _ _ hy
  · rw [view_mix c _ p0 p1 p2 hw1, hz]
    simp only [mix, V3.add_z, V3.smul_x, V3.smul_y, V3.smul_z, vertex]
    field_simp

/-- Depth without correction in a perspective view: never smaller than the true depth, and right only if the vertices have equal depths. -/
theorem uncorrected_depth (a b c z0 z1 z2 : K) (ha : 0 < a) (hb : 0 < b) (hc : 0 < c) (hs : a + b + c = 1) (h0 : 0 < z0) (h1 : 0 < z1) (h2 : 0 < z2) :
    1 / (a / z0 + b / z1 + c / z2) ≤ a * z0 + b * z1 + c * z2 ∧
      (1 / (a / z0 + b / z1 + c / z2) = a * z0 + b * z1 + c * z2 ↔ z0 = z1 ∧ z1 = z2) := by
  have hp : 0 < a / z0 + b / z1 + c / z2 := by positivity
  have key : (a * z0 + b * z1 + c * z2) * (a / z0 + b / z1 + c / z2) - 1 =
      a * b * (z0 - z1) ^ 2 / (z0 * z1) + b * c * (z1 - z2) ^ 2 / (z1 * z2) + a * c * (z0 - z2) ^ 2 / (z0 * z2) := by
    have hc' : c = 1 - a - b := by linarith
    subst hc'
    field_simp
    ring
  have q1 : 0 ≤ a * b * (z0 - z1) ^ 2 / (z0 * z1) := by positivity
  have q2 : 0 ≤ b * c * (z1 - z2) ^ 2 / (z1 * z2) := by positivity
  have q3 : 0 ≤ a * c * (z0 - z2) ^ 2 / (z0 * z2) := by positivity
  constructor
  · rw [div_le_iff₀ hp]
    linarith
  · rw [div_eq_iff hp.ne']
    constructor
    · intro h
      have t1 : a * b * (z0 - z1) ^ 2 / (z0 * z1) = 0 := by linarith
      have t2 : b * c * (z1 - z2) ^ 2 / (z1 * z2) = 0 := by linarith
      constructor
      · have : (z0 - z1) ^ 2 = 0 := by
          by_contra hne
          have : 0 < (z0 - z1) ^ 2 := lt_of_le_of_ne (sq_nonneg _) (Ne.symm hne)
          have : 0 < a * b * (z0 - z1) ^ 2 / (z0 * z1) := by positivity
          linarith
        have := pow_eq_zero_iff (two_ne_zero) |>.mp this
        linarith
      · have : (z1 - z2) ^ 2 = 0 := by
          by_contra hne
          have : 0 < (z1 - z2) ^ 2 := lt_of_le_of_ne (sq_nonneg _) (Ne.symm hne)
          have : 0 < b * c * (z1 - z2) ^ 2 / (z1 * z2) := by positivity
          linarith
        have := pow_eq_zero_iff (two_ne_zero) |>.mp this
        linarith
    · rintro ⟨rfl, rfl⟩
      have : (a * z0 + b * z0 + c * z0) * (a / z0 + b / z0 + c / z0) - 1 = 0 := by rw [key]; ring
      linarith

/-- Without a clipping plane (the default for `PerspectiveCameras`, which have no `znear`) a face with one vertex behind or at the camera is not drawn at any pixel, though part of it
is in view. -/
theorem behind_dropped (cfg : RCfg K) (c : Cam K) (idx : Nat) (nbr : ℤ) (p0 p1 p2 : V3 K) (h : (c.view p0).z < kEps ∨ (c.view p1).z < kEps ∨ (c.view p2).z < kEps) (xf yf : K) :
    faceHit cfg xf yf (face c idx nbr p0 p1 p2) = none := by
  cases hf : faceHit cfg xf yf (face c idx nbr p0 p1 p2) with
  | none => rfl
  | some df =>
    obtain ⟨-, -, -, a, b, d⟩ := hit_bary hf
    have e0 : (face c idx nbr p0 p1 p2).v0.z = (c.view p0).z := rfl
    have e1 : (face c idx nbr p0 p1 p2).v1.z = (c.view p1).z := rfl
    have e2 : (face c idx nbr p0 p1 p2).v2.z = (c.view p2).z := rfl
    rw [e0] at a
    rw [e1] at b
    rw [e2] at d
    rcases h with h | h | h
    · exact absurd a (not_le.mpr h)
    · exact absurd b (not_le.mpr h)
    · exact absurd d (not_le.mpr h)

/-! ### Examples -/

def exCam (isPersp : Bool) : Cam ℚ := ⟨⟨1, 0, 0, 0, 1, 0, 0, 0, 1⟩, ⟨0, 0, 0⟩, .persp 1 1 0 0, isPersp, none⟩

example : vertex (exCam true) ⟨3, 6, 3⟩ = ⟨1, 2, 3⟩ := by decide +kernel

/-- A slanted face with depths 1, 3 and 3, pixel centre (1/2, 1): corrected depth 3/2, uncorrected depth 2. -/
example : faceBaryClip ⟨0, 0, true, false, false⟩ (face (exCam true) 0 (-1) ⟨0, 0, 1⟩ ⟨6, 0, 3⟩ ⟨0, 12, 3⟩) (1 / 2 : ℚ) 1 = ⟨3 / 4, 1 / 8, 1 / 8⟩ ∧
    faceDepth ⟨0, 0, true, false, false⟩ (face (exCam true) 0 (-1) ⟨0, 0, 1⟩ ⟨6, 0, 3⟩ ⟨0, 12, 3⟩) (1 / 2 : ℚ) 1 = 3 / 2 ∧
    |faceDepth ⟨0, 0, false, false, false⟩ (face (exCam false) 0 (-1) ⟨0, 0, 1⟩ ⟨6, 0, 3⟩ ⟨0, 12, 3⟩) (1 / 2 : ℚ) 1 - 2| < 1 / 10 ^ 8 := by decide +kernel

example : transform (some (some [exCam true, exCam true])) none ([[], [], []] : List (List (V3 ℚ))) = .error .value := by decide +kernel

example : resolve (⟨0, none, none, none⟩ : Settings ℚ) true (some [4, 2]) = (true, false, some 1) := by decide +kernel

end P3D.RastGlue
