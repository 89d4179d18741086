/-
Phong, flat and Gouraud shading (`renderer/mesh/shading.py`) and the depth shaders (`renderer/mesh/shader.py`).

Fragments are indexed by their position in memory.  Vertices, normals and face normals are the packed ones of the batch.  Face indices are
those of valid meshes; an index outside is an error.  `camera` stands for `cameras.get_camera_center()`, and its rows are gathered where the
rows of `R` and `T` are.
-/
import Verif.Lighting
import Verif.LightPhysics
import Verif.FaceAttrs
import Verif.Blending

set_option linter.unusedSectionVars false

namespace P3D.Light

open P3D.Tens

noncomputable section

/-! ### Model: `renderer/mesh/shading.py` -/

/-- `pix_to_face` and `bary_coords` of the fragments, by position in memory. -/
structure Frags where
  N : Nat
  H : Nat
  W : Nat
  K : Nat
  pix : Nat → Int
  bary : Nat → Nat → ℝ

def Frags.size (fr : Frags) : Nat := fr.N * fr.H * fr.W * fr.K

/-- Position in memory of a fragment. -/
def Frags.pos (fr : Frags) (n h w k : Nat) : Nat := ((n * fr.H + h) * fr.W + w) * fr.K + k

/-- A tensor of vectors, one for each fragment. -/
def Frags.ten (fr : Frags) (f : Nat → Nat → ℝ) : Ten ℝ :=
  ⟨[fr.N, fr.H, fr.W, fr.K, 3], fun ix => f (fr.pos (ix.getD 0 0) (ix.getD 1 0) (ix.getD 2 0) (ix.getD 3 0)) (ix.getD 4 0)⟩

/-- Whether `faces` are rows of a tensor with `n` rows. -/
def inRange (faces : List (Nat × Nat × Nat)) (n : Nat) : Bool := faces.all fun f => decide (f.1 < n ∧ f.2.1 < n ∧ f.2.2 < n)

/-- `interpolate_face_attributes(pix_to_face, bary_coords, vals[faces])`, shading.py:85-92. -/
def interp (fr : Frags) (faces : List (Nat × Nat × Nat)) (vals : List (V3 ℝ)) : Except Err (Ten ℝ) :=
  if inRange faces vals.length then
    match FaceAttrs.sampleVertex fr.size 3 fr.pix fr.bary (fun v d => comp (vals.getD v 0) d) faces with
    | none => .error .runtime
    | some out => .ok (fr.ten out)
  else .error .index

/-- shading.py:60-97 `_phong_shading_with_pixels`: the colours (`phong_shading` drops the rest). -/
def phong (fr : Frags) (verts normals : List (V3 ℝ)) (faces : List (Nat × Nat × Nat)) (l : Lights) (camera : Ten ℝ) (mt : Materials)
    (texels : Ten ℝ) : Except Err (Ten ℝ) := do
  let p ← interp fr faces verts
  let n ← interp fr faces normals
  shade p n l camera mt texels

/-- shading.py:203-218: `vals.gather(0, idx).view(N, H, W, K, 3)` with the empty fragments set to zero. -/
def gatherFace (fr : Frags) (vals : List (V3 ℝ)) : Except Err (Ten ℝ) :=
  let q : Nat → Int := fun p => if fr.pix p = -1 then 0 else fr.pix p
  if ∀ p < fr.size, 0 ≤ q p ∧ q p < vals.length then
    .ok (fr.ten fun p c => if fr.pix p = -1 then 0 else comp (vals.getD (q p).toNat 0) c)
  else .error .runtime

/-- shading.py:199-200 `faces_verts.mean(dim=-2)`. -/
def centres (verts : List (V3 ℝ)) (faces : List (Nat × Nat × Nat)) : List (V3 ℝ) :=
  faces.map fun f => (3 : ℝ)⁻¹ • (verts.getD f.1 0 + verts.getD f.2.1 0 + verts.getD f.2.2 0)

/-- shading.py:175-225 `flat_shading`. -/
def flatShade (fr : Frags) (verts faceNormals : List (V3 ℝ)) (faces : List (Nat × Nat × Nat)) (l : Lights) (camera : Ten ℝ) (mt : Materials)
    (texels : Ten ℝ) : Except Err (Ten ℝ) := do
  if inRange faces verts.length then
    let p ← gatherFace fr (centres verts faces)
    let n ← gatherFace fr faceNormals
    shade p n l camera mt texels
  else .error .index

/-- One property of `gather_props` (renderer/utils.py:181-223). -/
def gather0 (idx : List Nat) (t : Ten ℝ) : Except Err (Ten ℝ) :=
  if 1 < size0 t then
    if ∀ i ∈ idx, i < size0 t then .ok ⟨idx.length :: t.shape.tail, fun ix => t.get (idx.getD (ix.headD 0) 0 :: ix.tail)⟩
    else .error .runtime
  else .ok t

def Lights.gather (idx : List Nat) : Lights → Except Err Lights
  | .directional a d s r => do
    let a ← gather0 idx a
    let d ← gather0 idx d
    let s ← gather0 idx s
    let r ← gather0 idx r
    .ok (.directional a d s r)
  | .point a d s r => do
    let a ← gather0 idx a
    let d ← gather0 idx d
    let s ← gather0 idx s
    let r ← gather0 idx r
    .ok (.point a d s r)
  | .ambient a => do
    let a ← gather0 idx a
    .ok (.ambient a)

def Materials.gather (idx : List Nat) (m : Materials) : Except Err Materials := do
  let a ← gather0 idx m.ambient
  let d ← gather0 idx m.diffuse
  let s ← gather0 idx m.specular
  let h ← gather0 idx m.shininess
  .ok ⟨a, d, s, h⟩

/-- A packed list of vectors as a tensor. -/
def packed (l : List (V3 ℝ)) : Ten ℝ := ⟨[l.length, 3], fun ix => comp (l.getD (ix.headD 0) 0) (ix.getD 1 0)⟩

/-- shading.py:149-170 of `gouraud_shading`: the colours of the vertices of a batch of `N` meshes. -/
def vertColors (N : Nat) (verts normals : List (V3 ℝ)) (colors : Ten ℝ) (meshIdx : List Nat) (l : Lights) (camera : Ten ℝ) (mt : Materials) :
    Except Err (Ten ℝ) := do
  let l ← if 1 < N then l.gather meshIdx else .ok l
  let camera ← if 1 < N then gather0 meshIdx camera else .ok camera
  let mt ← if 1 < N then mt.gather meshIdx else .ok mt
  let r ← applyLighting (packed verts) (packed normals) l camera mt
  let x ← map2 (· + ·) r.1 r.2.1
  let y ← map2 (· * ·) colors x
  map2 (· + ·) y r.2.2

/-- Rows of a tensor as vectors. -/
def rows3 (t : Ten ℝ) : List (V3 ℝ) := (List.range (size0 t)).map fun v => vec t.get [v]

/-- shading.py:125-174 `gouraud_shading`. -/
def gouraud (fr : Frags) (verts normals : List (V3 ℝ)) (colors : Ten ℝ) (meshIdx : List Nat) (faces : List (Nat × Nat × Nat)) (l : Lights)
    (camera : Ten ℝ) (mt : Materials) : Except Err (Ten ℝ) := do
  let c ← vertColors fr.N verts normals colors meshIdx l camera mt
  interp fr faces (rows3 c)

/-! ### Specification -/

/-- The combination of the values at the corners of a face, nothing for an empty fragment. -/
def pointAt (faces : List (Nat × Nat × Nat)) (vals : List (V3 ℝ)) (f : Int) (b : Nat → ℝ) : V3 ℝ :=
  if f < 0 then 0 else match faces[f.toNat]? with
    | some (x, y, z) => b 0 • vals.getD x 0 + b 1 • vals.getD y 0 + b 2 • vals.getD z 0
    | none => 0

theorem Frags.pos_lt (fr : Frags) {n h w k : Nat} (hn : n < fr.N) (hh : h < fr.H) (hw : w < fr.W) (hk : k < fr.K) :
    fr.pos n h w k < fr.size := by
  unfold Frags.pos Frags.size
  have h1 : n * fr.H + h < fr.N * fr.H := by nlinarith
  have h2 : (n * fr.H + h) * fr.W + w < fr.N * fr.H * fr.W := by nlinarith
  nlinarith

theorem Frags.ten_vec (fr : Frags) (f : Nat → Nat → ℝ) (n h w k : Nat) :
    vec (fr.ten f).get [n, h, w, k] = ⟨f (fr.pos n h w k) 0, f (fr.pos n h w k) 1, f (fr.pos n h w k) 2⟩ := by
  simp [vec, Frags.ten]

/-- Interpolation gives the combination at the corners. -/
theorem interp_spec {fr : Frags} {faces : List (Nat × Nat × Nat)} {vals : List (V3 ℝ)} (hf : inRange faces vals.length = true)
    (hF : faces ≠ []) (hp : ∀ p < fr.size, fr.pix p < faces.length) :
    ∃ t, interp fr faces vals = .ok t ∧ t.shape = [fr.N, fr.H, fr.W, fr.K, 3] ∧ ∀ n h w k, n < fr.N → h < fr.H → w < fr.W → k < fr.K →
      vec t.get [n, h, w, k] = pointAt faces vals (fr.pix (fr.pos n h w k)) (fr.bary (fr.pos n h w k)) := by
  obtain ⟨out, e, ho⟩ := FaceAttrs.sampleVertex_eq (D := 3) (bary := fr.bary) (features := fun v d => comp (vals.getD v 0) d) hp hF
  refine ⟨fr.ten out, ?_, rfl, ?_⟩
  · unfold interp
    rw [if_pos hf, e]
  · intro n h w k hn hh hw hk
    rw [Frags.ten_vec]
    have hlt := hp _ (fr.pos_lt hn hh hw hk)
    generalize fr.pos n h w k = p at hlt
    unfold pointAt
    split_ifs with hneg
    · rw [(ho p 0).1 hneg, (ho p 1).1 hneg, (ho p 2).1 hneg]; rfl
    · have hlt' : (fr.pix p).toNat < faces.length := by omega
      have hg : faces[(fr.pix p).toNat]? = some faces[(fr.pix p).toNat] := List.getElem?_eq_getElem hlt'
      rw [hg]
      generalize faces[(fr.pix p).toNat] = x at hg
      obtain ⟨a, b, c⟩ := x
      have hz : fr.pix p = ((fr.pix p).toNat : Int) := by omega
      rw [(ho p 0).2 _ a b c hz hg, (ho p 1).2 _ a b c hz hg, (ho p 2).2 _ a b c hz hg]
      ext <;> simp [comp]

/-- How the number of colours of a pixel depends on the number of materials: as wanted for one material; otherwise materials and fragments
of a pixel are matched with each other. -/
def Slots (M K K' : Nat) : Prop := (M = 1 ∧ K' = K) ∨ (M = K ∧ K' = K) ∨ (K = 1 ∧ K' = M)

theorem slot_lt {M K K' k : Nat} (h : Slots M K K') (hk : k < K') : pick K k < K := by
  unfold pick
  unfold Slots at h
  split_ifs with h1 <;> omega

/-- Phong shading: the light at the interpolated point with the interpolated normal. -/
theorem phong_spec {fr : Frags} {verts normals : List (V3 ℝ)} {faces : List (Nat × Nat × Nat)} {l : Lights} {camera texels : Ten ℝ}
    {mt : Materials} {L C M K' : Nat} (hN : 0 < fr.N) (hv : inRange faces verts.length = true) (hvn : inRange faces normals.length = true)
    (hF : faces ≠ []) (hp : ∀ p < fr.size, fr.pix p < faces.length) (ht : texels.shape = [fr.N, fr.H, fr.W, fr.K, 3])
    (hl : l.Ok L) (hL : L = 1 ∨ L = fr.N) (hcam : camera.shape = [C, 3]) (hC : C = 1 ∨ C = fr.N) (hmt : mt.Ok M) (hM : M = 1 ∨ M = fr.N)
    (hK : Slots M fr.K K') :
    ∃ r, phong fr verts normals faces l camera mt texels = .ok r ∧ r.shape = [fr.N, fr.H, fr.W, K', 3] ∧
      ∀ n < fr.N, ∀ h < fr.H, ∀ w < fr.W, ∀ k < K', ∀ q, q = fr.pos n h w (pick fr.K k) →
        vec r.get [n, h, w, k] = colorAt l L mt M camera C n k (pointAt faces verts (fr.pix q) (fr.bary q))
          (pointAt faces normals (fr.pix q) (fr.bary q)) (vec texels.get [n, h, w, pick fr.K k]) := by
  obtain ⟨tp, ep, hps, hpv⟩ := interp_spec hv hF hp
  obtain ⟨tn, en, hns, hnv⟩ := interp_spec hvn hF hp
  obtain ⟨r, er, hrs, hr⟩ := shade_spec hN hl hL hps hns ht hcam hC hmt hM hK
  refine ⟨r, ?_, hrs, ?_⟩
  · simp only [phong, ep, en, bind, Except.bind, er]
  · intro n hn h hh w hw k hk q hq
    have hk' := slot_lt hK hk
    rw [hr n hn h hh w hw k hk, hpv n h w _ hn hh hw hk', hnv n h w _ hn hh hw hk', ← hq]

/-- Empty fragments: ambient light on the texel; a highlight only if the shininess is zero. -/
theorem color_empty (l : Lights) (L M C : Nat) (mt : Materials) (camera : Ten ℝ) (b k : Nat) (t : V3 ℝ)
    (hs : 0 < mt.shininess.get [pick M b]) :
    colorAt l L mt M camera C b k 0 0 t = had (had (row mt.ambient M b) (row l.amb L b)) t := by
  have h1 : l.diffuseAt L b 0 0 = 0 := by
    cases l <;> simp only [Lights.diffuseAt, (empty_point _ 0).1] <;> ext <;> simp
  have h2 : l.specularAt L b 0 0 (row camera C b) (mt.shininess.get [pick M b]) = 0 := by
    cases l <;> simp only [Lights.specularAt, (empty_point _ _).2, specular_pos hs] <;> ext <;> simp
  rw [colorAt, h1, h2]
  ext <;> simp [had]

/-- With shininess zero empty fragments get the full highlight of directional and point lights. -/
theorem color_empty_zero (a d s r : Ten ℝ) (L M C : Nat) (mt : Materials) (camera : Ten ℝ) (b k : Nat) (t : V3 ℝ)
    (hs : mt.shininess.get [pick M b] = 0) :
    colorAt (.point a d s r) L mt M camera C b k 0 0 t = had (had (row mt.ambient M b) (row a L b)) t + had (row mt.specular M k) (row s L b) := by
  have h1 : (Lights.point a d s r).diffuseAt L b 0 0 = 0 := by
    simp only [Lights.diffuseAt, (empty_point _ 0).1]; ext <;> simp
  rw [colorAt, h1, hs]
  simp only [Lights.specularAt, specular_zero, Lights.amb]
  ext <;> simp [had]

theorem pointAt_empty (faces : List (Nat × Nat × Nat)) (vals : List (V3 ℝ)) {f : Int} (hf : f < 0) (b : Nat → ℝ) :
    pointAt faces vals f b = 0 := by rw [pointAt, if_pos hf]

/-- At a corner of a face the point is the vertex. -/
theorem pointAt_vertex {faces : List (Nat × Nat × Nat)} {vals : List (V3 ℝ)} {f x y z : Nat} (h : faces[f]? = some (x, y, z)) {b : Nat → ℝ}
    (h0 : b 0 = 1) (h1 : b 1 = 0) (h2 : b 2 = 0) : pointAt faces vals f b = vals.getD x 0 := by
  rw [pointAt, if_neg (by omega), show ((f : Int)).toNat = f from rfl, h]
  simp only [h0, h1, h2]
  ext <;> simp

/-! ### Flat shading -/

theorem gatherFace_spec {fr : Frags} {vals : List (V3 ℝ)} (hF : 0 < vals.length) (hp : ∀ p < fr.size, -1 ≤ fr.pix p ∧ fr.pix p < vals.length) :
    ∃ t, gatherFace fr vals = .ok t ∧ t.shape = [fr.N, fr.H, fr.W, fr.K, 3] ∧ ∀ n h w k, vec t.get [n, h, w, k] =
      if fr.pix (fr.pos n h w k) = -1 then 0 else vals.getD (fr.pix (fr.pos n h w k)).toNat 0 := by
  refine ⟨fr.ten fun p c => if fr.pix p = -1 then 0 else comp (vals.getD (if fr.pix p = -1 then 0 else fr.pix p).toNat 0) c, ?_, rfl, ?_⟩
  · exact if_pos fun p hp' => by have := hp p hp'; dsimp only; split_ifs <;> constructor <;> omega
  · intro n h w k
    rw [Frags.ten_vec]
    split_ifs with h1
    · rfl
    · ext <;> simp [comp]

/-- A negative index other than `-1` is an error. -/
theorem gatherFace_negative {fr : Frags} {vals : List (V3 ℝ)} {p : Nat} (hp : p < fr.size) (h : fr.pix p < -1) :
    gatherFace fr vals = .error .runtime := by
  refine if_neg fun h' => ?_
  have := h' p hp
  simp only [if_neg (show fr.pix p ≠ -1 by omega)] at this
  omega

/-- Flat shading: the light at the centre of the face with the normal of the face. -/
theorem flat_spec {fr : Frags} {verts fn : List (V3 ℝ)} {faces : List (Nat × Nat × Nat)} {l : Lights} {camera texels : Ten ℝ}
    {mt : Materials} {L C M K' : Nat} (hN : 0 < fr.N) (hv : inRange faces verts.length = true) (hfn : fn.length = faces.length)
    (hF : faces ≠ []) (hp : ∀ p < fr.size, -1 ≤ fr.pix p ∧ fr.pix p < faces.length) (ht : texels.shape = [fr.N, fr.H, fr.W, fr.K, 3])
    (hl : l.Ok L) (hL : L = 1 ∨ L = fr.N) (hcam : camera.shape = [C, 3]) (hC : C = 1 ∨ C = fr.N) (hmt : mt.Ok M) (hM : M = 1 ∨ M = fr.N)
    (hK : Slots M fr.K K') :
    ∃ r, flatShade fr verts fn faces l camera mt texels = .ok r ∧ r.shape = [fr.N, fr.H, fr.W, K', 3] ∧
      ∀ n < fr.N, ∀ h < fr.H, ∀ w < fr.W, ∀ k < K', ∀ f, fr.pix (fr.pos n h w (pick fr.K k)) = f →
        (∀ i x y z, f = Int.ofNat i → faces[i]? = some (x, y, z) → vec r.get [n, h, w, k] = colorAt l L mt M camera C n k
          ((3 : ℝ)⁻¹ • (verts.getD x 0 + verts.getD y 0 + verts.getD z 0)) (fn.getD i 0) (vec texels.get [n, h, w, pick fr.K k])) ∧
        (f = -1 → vec r.get [n, h, w, k] = colorAt l L mt M camera C n k 0 0 (vec texels.get [n, h, w, pick fr.K k])) := by
  have hFl := List.length_pos_iff.mpr hF
  obtain ⟨tp, ep, hps, hpv⟩ := gatherFace_spec (vals := centres verts faces) (by simpa [centres] using hFl) (by simpa [centres] using hp)
  obtain ⟨tn, en, hns, hnv⟩ := gatherFace_spec (vals := fn) (by omega) (by simpa [hfn] using hp)
  obtain ⟨r, er, hrs, hr⟩ := shade_spec hN hl hL hps hns ht hcam hC hmt hM hK
  refine ⟨r, ?_, hrs, ?_⟩
  · simp only [flatShade, hv, if_true, ep, en, bind, Except.bind, er]
  · intro n hn h hh w hw k hk f hf
    rw [hr n hn h hh w hw k hk, hpv, hnv, hf]
    constructor
    · rintro i x y z rfl hi
      have hi' : i < faces.length := (List.getElem?_eq_some_iff.mp hi).1
      have e1 : (centres verts faces).getD i 0 = (3 : ℝ)⁻¹ • (verts.getD x 0 + verts.getD y 0 + verts.getD z 0) := by
        simp [centres, hi]
      rw [if_neg (by simp), if_neg (by simp), show (Int.ofNat i).toNat = i from rfl, e1]
    · rintro rfl
      simp

/-! ### Gouraud shading -/

/-- The number of rows after gathering. -/
def gsize (L : Nat) (idx : List Nat) : Nat := if 1 < L then idx.length else L

theorem gsize_or {L N : Nat} (hL : L = 1 ∨ L = N) (hN : 0 < N) (idx : List Nat) : gsize L idx = 1 ∨ gsize L idx = idx.length := by
  unfold gsize; split_ifs <;> omega

theorem gather0_spec {t : Ten ℝ} {L N : Nat} {s : List Nat} (hN : 0 < N) (ht : t.shape = L :: s) (hL : L = 1 ∨ L = N) {idx : List Nat}
    (hi : ∀ i ∈ idx, i < N) :
    ∃ u, gather0 idx t = .ok u ∧ u.shape = gsize L idx :: s ∧ ∀ v < idx.length, ∀ c,
      u.get (pick (gsize L idx) v :: c) = t.get (pick L (idx.getD v 0) :: c) := by
  have hs : size0 t = L := by simp [size0, ht]
  by_cases h1 : 1 < L
  · have hLN : L = N := by omega
    have hg : gsize L idx = idx.length := if_pos h1
    refine ⟨⟨idx.length :: t.shape.tail, fun ix => t.get (idx.getD (ix.headD 0) 0 :: ix.tail)⟩, ?_, ?_, ?_⟩
    · unfold gather0
      rw [hs, if_pos h1, if_pos (by rw [hLN]; exact hi)]
    · simp [ht, hg]
    · intro v hv c
      have e1 : pick idx.length v = v := by unfold pick; split_ifs <;> omega
      have e2 : pick L (idx.getD v 0) = idx.getD v 0 := by unfold pick; rw [if_neg (by omega)]
      simp only [hg, e1, e2, List.headD_cons, List.tail_cons]
  · have hL1 : L = 1 := by omega
    have hg : gsize L idx = L := if_neg h1
    refine ⟨t, ?_, by rw [hg, ht], ?_⟩
    · unfold gather0
      rw [if_neg (by rw [hs]; exact h1)]
    · intro v hv c
      rw [hg]; simp [pick, hL1]

theorem gather0_row {t u : Ten ℝ} {L B : Nat} {idx : List Nat} (h : ∀ v < idx.length, ∀ c, u.get (pick B v :: c) = t.get (pick L (idx.getD v 0) :: c))
    {v : Nat} (hv : v < idx.length) : row u B v = row t L (idx.getD v 0) := by
  simp only [row, h v hv]

/-- Gathered lights: those of the mesh of the vertex. -/
theorem lights_gather {l : Lights} {L N : Nat} (hN : 0 < N) (hl : l.Ok L) (hL : L = 1 ∨ L = N) {idx : List Nat} (hi : ∀ i ∈ idx, i < N) :
    ∃ l', l.gather idx = .ok l' ∧ l'.Ok (gsize L idx) ∧ ∀ v < idx.length, row l'.amb (gsize L idx) v = row l.amb L (idx.getD v 0) ∧
      (∀ p n, l'.diffuseAt (gsize L idx) v p n = l.diffuseAt L (idx.getD v 0) p n) ∧
      (∀ p n cam s, l'.specularAt (gsize L idx) v p n cam s = l.specularAt L (idx.getD v 0) p n cam s) := by
  cases l with
  | directional a d s r =>
    obtain ⟨ha, hd, hs, hr⟩ := hl
    obtain ⟨a', ea, ha', ga⟩ := gather0_spec hN ha hL hi
    obtain ⟨d', ed, hd', gd⟩ := gather0_spec hN hd hL hi
    obtain ⟨s', es, hs', gs⟩ := gather0_spec hN hs hL hi
    obtain ⟨r', er, hr', gr⟩ := gather0_spec hN hr hL hi
    refine ⟨.directional a' d' s' r', by simp only [Lights.gather, ea, ed, es, er, bind, Except.bind], ⟨ha', hd', hs', hr'⟩, fun v hv => ?_⟩
    simp only [Lights.amb, Lights.diffuseAt, Lights.specularAt, gather0_row ga hv, gather0_row gd hv, gather0_row gs hv, gather0_row gr hv]
    exact ⟨trivial, fun _ _ => trivial, fun _ _ _ _ => trivial⟩
  | point a d s r =>
    obtain ⟨ha, hd, hs, hr⟩ := hl
    obtain ⟨a', ea, ha', ga⟩ := gather0_spec hN ha hL hi
    obtain ⟨d', ed, hd', gd⟩ := gather0_spec hN hd hL hi
    obtain ⟨s', es, hs', gs⟩ := gather0_spec hN hs hL hi
    obtain ⟨r', er, hr', gr⟩ := gather0_spec hN hr hL hi
    refine ⟨.point a' d' s' r', by simp only [Lights.gather, ea, ed, es, er, bind, Except.bind], ⟨ha', hd', hs', hr'⟩, fun v hv => ?_⟩
    simp only [Lights.amb, Lights.diffuseAt, Lights.specularAt, gather0_row ga hv, gather0_row gd hv, gather0_row gs hv, gather0_row gr hv]
    exact ⟨trivial, fun _ _ => trivial, fun _ _ _ _ => trivial⟩
  | ambient a =>
    obtain ⟨a', ea, ha', ga⟩ := gather0_spec hN hl hL hi
    refine ⟨.ambient a', by simp only [Lights.gather, ea, bind, Except.bind], ha', fun v hv => ?_⟩
    exact ⟨gather0_row ga hv, fun _ _ => rfl, fun _ _ _ _ => rfl⟩

theorem packed_vec (l : List (V3 ℝ)) {v : Nat} : vec (packed l).get [v] = l.getD v 0 := by
  simp only [vec, packed]
  ext <;> simp [comp]

/-- A tensor of shape `(A, 3)` without its dimensions of size one. -/
theorem squeeze_reads {t : Ten ℝ} {A V : Nat} (ht : t.shape = [A, 3]) {v : List Nat → V3 ℝ} (h : ReadsV t [V] v) : ReadsV (squeeze t) [V] v := by
  have hfit := h.2.1
  rw [ht] at hfit
  obtain ⟨hA, -⟩ := fit_snoc (a := [A]) (s := [V]) hfit
  by_cases h1 : A = 1
  · subst h1
    have hs : (squeeze t).shape = [3] := by simp [squeeze, ht]
    refine ⟨⟨[], hs⟩, ?_, fun ix hix => ?_⟩
    · rw [hs]; exact .cons (Or.inr rfl) (.nil _)
    · obtain ⟨jx, c, rfl, hj, hc⟩ := inR_snoc hix
      obtain ⟨i, kx, rfl, hk, hi⟩ := inR_cons hj
      cases hk
      rw [← h.2.2 _ hix, hs, ht]
      have e1 : bidx [3] ([i] ++ [c]) = [c] := by simp [bidx, irev]
      have e2 : bidx [1, 3] ([i] ++ [c]) = [0, c] := by simp [bidx, irev]
      rw [e1, e2]
      simp [squeeze, ht, unsqueezeIdx]
  · have hs : (squeeze t).shape = [A, 3] := by simp [squeeze, ht, h1]
    refine ⟨⟨[A], hs⟩, ?_, fun ix hix => ?_⟩
    · rw [hs]; exact hfit
    · obtain ⟨jx, c, rfl, hj, hc⟩ := inR_snoc hix
      obtain ⟨i, kx, rfl, hk, hi⟩ := inR_cons hj
      cases hk
      rw [← h.2.2 _ hix, hs, ht]
      have e1 : bidx [A, 3] ([i] ++ [c]) = [i, c] := by simp [bidx, irev, h1]
      rw [e1]
      simp [squeeze, ht, unsqueezeIdx, h1]

/-- The light at packed vertices, with lights, camera and material of their own or common. -/
theorem apply_packed {l : Lights} {mt : Materials} {verts normals : List (V3 ℝ)} {camera colors : Ten ℝ} {L C M : Nat}
    (hV : 0 < verts.length) (hn : normals.length = verts.length) (hcol : colors.shape = [verts.length, 3])
    (hl : l.Ok L) (hL : L = 1 ∨ L = verts.length) (hcam : camera.shape = [C, 3]) (hC : C = 1 ∨ C = verts.length) (hmt : mt.Ok M)
    (hM : M = 1 ∨ M = verts.length) :
    ∃ r, (do
        let r ← applyLighting (packed verts) (packed normals) l camera mt
        let x ← map2 (· + ·) r.1 r.2.1
        let y ← map2 (· * ·) colors x
        map2 (· + ·) y r.2.2 : Except Err (Ten ℝ)) = .ok r ∧ r.shape = [verts.length, 3] ∧ ∀ v < verts.length,
      vec r.get [v] = colorAt l L mt M camera C v v (verts.getD v 0) (normals.getD v 0) (vec colors.get [v]) := by
  obtain ⟨ma, md, ms, msh⟩ := hmt
  have hps : (packed verts).shape = verts.length :: ([] ++ [3]) := rfl
  have hns : (packed normals).shape = verts.length :: ([] ++ [3]) := by simp [packed, hn]
  obtain ⟨ld, eld, hlds, hldr⟩ := lights_diffuse (m := []) hV (Or.inl rfl) hl hL hps hns
  obtain ⟨ls, els, hlss, hlsr⟩ := lights_specular (m := []) hV (Or.inl rfl) hl hL hps hns hcam hC msh hM
  obtain ⟨a, A, ea, has, hA, har⟩ := amb_reads ma (amb_ok hl) hM hL
  obtain ⟨d, ed, hdr, hds⟩ := (row_reads md hM).map2 hldr (fun x y => x * y)
  obtain ⟨sp, es, hsr, hss⟩ := (row_reads ms hM).map2 hlsr (fun x y => x * y)
  have hds' := hds (Or.inr hlds)
  have hss' := hss (Or.inr hlss)
  have qa := squeeze_reads has (row_reads has hA)
  have qd := squeeze_reads hds' hdr
  have qs := squeeze_reads hss' hsr
  obtain ⟨x, ex, hxr, -⟩ := qa.map2 qd (fun x y => x + y)
  obtain ⟨y, ey, hyr, hys⟩ := (self_readsV (m := []) hcol).map2 hxr (fun x y => x * y)
  have hys' := hys (Or.inl hcol)
  obtain ⟨r, er, hrr, hrs⟩ := hyr.map2 qs (fun x y => x + y)
  have hrs' := hrs (Or.inl hys')
  refine ⟨r, ?_, hrs', ?_⟩
  · unfold applyLighting
    simp only [eld, els, ea, ed, es, bind, Except.bind, hps, hns, List.nil_append, List.length_cons, List.length_nil, and_self, if_true,
      ex, ey, er]
  · intro v hv
    rw [hrr.vec_get hrs' (.cons hv .nil)]
    simp only [List.headD_cons, packed_vec, har v hv, colorAt]
    ext <;> simp [had] <;> ring

/-- The colours of the vertices: light, camera and material of the mesh they belong to. -/
theorem vertColors_spec {N : Nat} {l : Lights} {mt : Materials} {verts normals : List (V3 ℝ)} {camera colors : Ten ℝ} {meshIdx : List Nat}
    {L C M : Nat} (hN : 0 < N) (hV : 0 < verts.length) (hn : normals.length = verts.length) (hcol : colors.shape = [verts.length, 3])
    (hidx : meshIdx.length = verts.length) (hi : ∀ i ∈ meshIdx, i < N) (hl : l.Ok L) (hL : L = 1 ∨ L = N)
    (hcam : camera.shape = [C, 3]) (hC : C = 1 ∨ C = N) (hmt : mt.Ok M) (hM : M = 1 ∨ M = N) :
    ∃ r, vertColors N verts normals colors meshIdx l camera mt = .ok r ∧ r.shape = [verts.length, 3] ∧ ∀ v < verts.length,
      vec r.get [v] = colorAt l L mt M camera C (meshIdx.getD v 0) (meshIdx.getD v 0) (verts.getD v 0) (normals.getD v 0)
        (vec colors.get [v]) := by
  by_cases h1 : 1 < N
  · obtain ⟨l', el, hl', gl⟩ := lights_gather hN hl hL hi
    obtain ⟨cam', ec, hc', gc⟩ := gather0_spec hN hcam hC hi
    obtain ⟨ma, md, ms, msh⟩ := hmt
    obtain ⟨a', ea, ha', ga⟩ := gather0_spec hN ma hM hi
    obtain ⟨d', ed, hd', gd⟩ := gather0_spec hN md hM hi
    obtain ⟨s', es, hs', gs⟩ := gather0_spec hN ms hM hi
    obtain ⟨h', eh, hh', gh⟩ := gather0_spec hN msh hM hi
    have em : mt.gather meshIdx = .ok ⟨a', d', s', h'⟩ := by
      simp only [Materials.gather, ea, ed, es, eh, bind, Except.bind]
    obtain ⟨r, er, hrs, hr⟩ := apply_packed (mt := ⟨a', d', s', h'⟩) hV hn hcol hl' (hidx ▸ gsize_or hL hN meshIdx) hc'
      (hidx ▸ gsize_or hC hN meshIdx) ⟨ha', hd', hs', hh'⟩ (hidx ▸ gsize_or hM hN meshIdx)
    refine ⟨r, ?_, hrs, ?_⟩
    · simp only [vertColors, if_pos h1, el, ec, em, bind, Except.bind] at er ⊢
      exact er
    · intro v hv
      have hv' : v < meshIdx.length := by omega
      rw [hr v hv]
      obtain ⟨e1, e2, e3⟩ := gl v hv'
      simp only [colorAt, e1, e2, e3, gather0_row gc hv', gather0_row ga hv', gather0_row gd hv', gather0_row gs hv', gh v hv']
  · have hN1 : N = 1 := by omega
    subst hN1
    have hL1 : L = 1 := by omega
    have hC1 : C = 1 := by omega
    have hM1 : M = 1 := by omega
    subst hL1; subst hC1; subst hM1
    obtain ⟨r, er, hrs, hr⟩ := apply_packed hV hn hcol hl (Or.inl rfl) hcam (Or.inl rfl) hmt (Or.inl rfl)
    refine ⟨r, ?_, hrs, ?_⟩
    · simp only [vertColors, if_neg h1, bind, Except.bind] at er ⊢
      exact er
    · intro v hv
      rw [hr v hv]
      have e : ∀ (t : Ten ℝ) (b : Nat), row t 1 b = row t 1 0 := fun t b => by simp [row, pick]
      cases l <;> simp only [colorAt, Lights.diffuseAt, Lights.specularAt, e _ v, e _ (meshIdx.getD v 0)] <;> simp [pick]

/-- Gouraud shading: the colours of the three vertices of the face, combined. -/
theorem gouraud_spec {fr : Frags} {l : Lights} {mt : Materials} {verts normals : List (V3 ℝ)} {camera colors : Ten ℝ} {meshIdx : List Nat}
    {faces : List (Nat × Nat × Nat)} {L C M : Nat} (hN : 0 < fr.N) (hV : 0 < verts.length) (hn : normals.length = verts.length)
    (hcol : colors.shape = [verts.length, 3]) (hidx : meshIdx.length = verts.length) (hi : ∀ i ∈ meshIdx, i < fr.N) (hl : l.Ok L)
    (hL : L = 1 ∨ L = fr.N) (hcam : camera.shape = [C, 3]) (hC : C = 1 ∨ C = fr.N) (hmt : mt.Ok M) (hM : M = 1 ∨ M = fr.N)
    (hf : inRange faces verts.length = true) (hF : faces ≠ []) (hp : ∀ p < fr.size, fr.pix p < faces.length) :
    ∃ r, gouraud fr verts normals colors meshIdx faces l camera mt = .ok r ∧ r.shape = [fr.N, fr.H, fr.W, fr.K, 3] ∧
      ∀ n h w k, n < fr.N → h < fr.H → w < fr.W → k < fr.K →
        vec r.get [n, h, w, k] = pointAt faces ((List.range verts.length).map fun v =>
          colorAt l L mt M camera C (meshIdx.getD v 0) (meshIdx.getD v 0) (verts.getD v 0) (normals.getD v 0) (vec colors.get [v]))
            (fr.pix (fr.pos n h w k)) (fr.bary (fr.pos n h w k)) := by
  obtain ⟨c, ec, hcs, hc⟩ := vertColors_spec hN hV hn hcol hidx hi hl hL hcam hC hmt hM
  have hrows : rows3 c = (List.range verts.length).map fun v =>
      colorAt l L mt M camera C (meshIdx.getD v 0) (meshIdx.getD v 0) (verts.getD v 0) (normals.getD v 0) (vec colors.get [v]) := by
    unfold rows3
    rw [show size0 c = verts.length by simp [size0, hcs]]
    exact List.map_congr_left fun v hv => hc v (List.mem_range.mp hv)
  obtain ⟨r, er, hrs, hr⟩ := interp_spec (vals := rows3 c) (by rw [hrows]; simpa using hf) hF hp
  refine ⟨r, ?_, hrs, ?_⟩
  · simp only [gouraud, ec, bind, Except.bind, er]
  · rw [← hrows]; exact hr

/-- Lights and vertex colours with one channel: the colours of `V` vertices have `V` channels. -/
theorem gouraud_one_channel {V : Nat} (hV : 1 < V) {colors a : Ten ℝ} (hc : colors.shape = [V, 1]) (ha : a.shape = [V, 1]) :
    ∃ r, map2 (· * ·) colors (squeeze a) = .ok r ∧ r.shape = [V, V] ∧ ∀ i < V, ∀ j < V, r.get [i, j] = colors.get [i, 0] * a.get [j, 0] := by
  have hs : (squeeze a).shape = [V] := by simp [squeeze, ha, show V ≠ 1 by omega]
  have hb : bshape [V, 1] [V] = some [V, V] := by simp [bshape, brev, one_bdim]
  refine ⟨⟨[V, V], fun ix => colors.get (bidx [V, 1] ix) * (squeeze a).get (bidx [V] ix)⟩, ?_, rfl, ?_⟩
  · unfold map2
    rw [hc, hs, hb]
  · intro i hi j hj
    have e1 : bidx [V, 1] [i, j] = [i, 0] := by simp [bidx, irev, show V ≠ 1 by omega]
    have e2 : bidx [V] [i, j] = [j] := by simp [bidx, irev, show V ≠ 1 by omega]
    simp only [e1, e2]
    simp [squeeze, ha, unsqueezeIdx, show V ≠ 1 by omega]

/-! ### One material, several materials -/

/-- One material for all: the colours as documented, for any number of lights and cameras. -/
theorem phong_one_material {fr : Frags} {verts normals : List (V3 ℝ)} {faces : List (Nat × Nat × Nat)} {l : Lights} {camera texels : Ten ℝ}
    {mt : Materials} {L C : Nat} (hN : 0 < fr.N) (hv : inRange faces verts.length = true) (hvn : inRange faces normals.length = true)
    (hF : faces ≠ []) (hp : ∀ p < fr.size, fr.pix p < faces.length) (ht : texels.shape = [fr.N, fr.H, fr.W, fr.K, 3])
    (hl : l.Ok L) (hL : L = 1 ∨ L = fr.N) (hcam : camera.shape = [C, 3]) (hC : C = 1 ∨ C = fr.N) (hmt : mt.Ok 1) :
    ∃ r, phong fr verts normals faces l camera mt texels = .ok r ∧ r.shape = [fr.N, fr.H, fr.W, fr.K, 3] ∧
      ∀ n < fr.N, ∀ h < fr.H, ∀ w < fr.W, ∀ k < fr.K, ∀ q, q = fr.pos n h w k →
        vec r.get [n, h, w, k] = colorAt l L mt 1 camera C n n (pointAt faces verts (fr.pix q) (fr.bary q))
          (pointAt faces normals (fr.pix q) (fr.bary q)) (vec texels.get [n, h, w, k]) := by
  obtain ⟨r, er, hrs, hr⟩ := phong_spec (K' := fr.K) hN hv hvn hF hp ht hl hL hcam hC hmt (Or.inl rfl) (Or.inl ⟨rfl, rfl⟩)
  refine ⟨r, er, hrs, ?_⟩
  intro n hn h hh w hw k hk q hq
  have e : pick fr.K k = k := by unfold pick; split_ifs <;> omega
  have := hr n hn h hh w hw k hk q (by rw [e]; exact hq)
  rw [this, e]
  simp only [colorAt, row, pick, if_true]

/-- One material per mesh and one fragment per pixel: the result has as many colours per pixel as there are meshes, and the first, the one
that is shown, has the diffuse and specular colours of the first material in all images. -/
theorem phong_materials {fr : Frags} {verts normals : List (V3 ℝ)} {faces : List (Nat × Nat × Nat)} {l : Lights} {camera texels : Ten ℝ}
    {mt : Materials} {L C : Nat} (hN : 0 < fr.N) (hv : inRange faces verts.length = true) (hvn : inRange faces normals.length = true)
    (hF : faces ≠ []) (hp : ∀ p < fr.size, fr.pix p < faces.length) (ht : texels.shape = [fr.N, fr.H, fr.W, fr.K, 3])
    (hl : l.Ok L) (hL : L = 1 ∨ L = fr.N) (hcam : camera.shape = [C, 3]) (hC : C = 1 ∨ C = fr.N) (hmt : mt.Ok fr.N) (hK : fr.K = 1) :
    ∃ r, phong fr verts normals faces l camera mt texels = .ok r ∧ r.shape = [fr.N, fr.H, fr.W, fr.N, 3] ∧
      ∀ n < fr.N, ∀ h < fr.H, ∀ w < fr.W, ∀ q, q = fr.pos n h w 0 →
        vec r.get [n, h, w, 0] = colorAt l L mt fr.N camera C n 0 (pointAt faces verts (fr.pix q) (fr.bary q))
          (pointAt faces normals (fr.pix q) (fr.bary q)) (vec texels.get [n, h, w, 0]) := by
  obtain ⟨r, er, hrs, hr⟩ := phong_spec (K' := fr.N) hN hv hvn hF hp ht hl hL hcam hC hmt (Or.inr rfl) (Or.inr (Or.inr ⟨hK, rfl⟩))
  refine ⟨r, er, hrs, ?_⟩
  intro n hn h hh w hw q hq
  have e : pick fr.K 0 = 0 := ite_self 0
  have := hr n hn h hh w hw 0 hN q (by rw [e]; exact hq)
  rw [this, e]

/-- One material per mesh and several fragments per pixel, not as many as meshes: an error. -/
theorem phong_materials_error {fr : Frags} {verts normals : List (V3 ℝ)} {faces : List (Nat × Nat × Nat)} {l : Lights} {camera texels : Ten ℝ}
    {mt : Materials} {L C : Nat} (hN : 1 < fr.N) (hv : inRange faces verts.length = true) (hvn : inRange faces normals.length = true)
    (hF : faces ≠ []) (hp : ∀ p < fr.size, fr.pix p < faces.length)
    (hl : l.Ok L) (hL : L = 1 ∨ L = fr.N) (hcam : camera.shape = [C, 3]) (hC : C = 1 ∨ C = fr.N) (hmt : mt.Ok fr.N) (hK : fr.K ≠ 1)
    (hKN : fr.K ≠ fr.N) : phong fr verts normals faces l camera mt texels = .error .runtime := by
  obtain ⟨tp, ep, hps, hpv⟩ := interp_spec hv hF hp
  obtain ⟨tn, en, hns, hnv⟩ := interp_spec hvn hF hp
  simp only [phong, ep, en, bind, Except.bind]
  exact shade_error (by omega) hl hL hps hns hcam hC hmt (Or.inr rfl) ⟨by omega, hK, fun h => hKN h.symm⟩

/-! ### Depth shaders (`renderer/mesh/shader.py`) -/

/-- `zfar`: a number, or the property of a batch of cameras. -/
inductive Zfar
  | number (z : ℝ)
  | batch (l : List ℝ)

/-- shader.py:374-381 `HardDepthShader.forward`: `pix_to_face[..., 0]` and `zbuf[..., 0]` of all pixels.  `zbuf[mask] = zfar` wants as many
values as there are places, or one. -/
def hardDepth (first : List (Int × ℝ)) (z : Zfar) : Except Err (List ℝ) :=
  match z with
  | .number z => .ok (first.map fun q => if q.1 < 0 then z else q.2)
  | .batch l =>
    let num := first.countP fun q => decide (q.1 < 0)
    if l.length = 1 then .ok (first.map fun q => if q.1 < 0 then l.getD 0 0 else q.2)
    else if l.length = num then
      match Blending.maskedScatter (first.map fun q => (decide (q.1 < 0), q.2)) l with
      | some r => .ok r
      | none => .error .runtime
    else .error .runtime

/-- `cumsum`, after `S`. -/
def cums (S : ℝ) : List ℝ → List ℝ
  | [] => []
  | x :: t => (S + x) :: cums (S + x) t

/-- `diff` after `prev`. -/
def diffs (prev : ℝ) : List ℝ → List ℝ
  | [] => []
  | x :: t => (x - prev) :: diffs x t

/-- shader.py:403-434 `SoftDepthShader.forward` at one pixel; `zfar` is what `ones(N, H, W, 1) * zfar` has in the last dimension. -/
def softDepth (sigma : ℝ) (f : Blending.Frag) (zfar : List ℝ) : Except Err ℝ :=
  let prob := (List.range f.K).map fun k => Blending.sigmoid (-f.dist k / sigma) * Blending.mask f k
  let dists := (List.range f.K).map f.zbuf ++ zfar
  let probs := diffs 0 ((cums 0 (prob ++ [1])).map (min 1))
  if probs.length = dists.length then .ok (List.zipWith (· * ·) probs dists).sum
  else if probs.length = 1 then .ok (dists.map (probs.getD 0 0 * ·)).sum
  else .error .runtime

/-- Specification: each fragment takes its probability of what is left, the background the rest. -/
def fill (zfar : ℝ) : ℝ → List (ℝ × ℝ) → ℝ
  | left, [] => left * zfar
  | left, (p, z) :: t => min p left * z + fill zfar (left - min p left) t

theorem hard_number (first : List (Int × ℝ)) (z : ℝ) : hardDepth first (.batch [z]) = hardDepth first (.number z) := by
  simp [hardDepth]

/-- Several cameras with their own `zfar`: an error, unless there happen to be as many background pixels as cameras. -/
theorem hard_batch_error {first : List (Int × ℝ)} {l : List ℝ} (h1 : l.length ≠ 1) (h2 : l.length ≠ first.countP fun q => decide (q.1 < 0)) :
    hardDepth first (.batch l) = .error .runtime := by
  simp only [hardDepth, if_neg h1, if_neg h2]

theorem scatter_spec : ∀ (xs : List (Bool × ℝ)) (l : List ℝ), l.length = xs.countP (·.1) →
    ∃ r, Blending.maskedScatter xs l = some r ∧ r.length = xs.length ∧ ∀ i (h : i < xs.length),
      r[i]? = if xs[i].1 then l[(xs.take i).countP (·.1)]? else some xs[i].2
  | [], l, _ => ⟨[], rfl, rfl, fun i h => absurd h (by simp)⟩
  | (false, v) :: t, l, hl => by
    obtain ⟨r, e, hr, hi⟩ := scatter_spec t l (by simpa using hl)
    refine ⟨v :: r, by simp [Blending.maskedScatter, e], by simp [hr], fun i h => ?_⟩
    cases i with
    | zero => simp
    | succ i => simpa using hi i (by simpa using h)
  | (true, v) :: t, [], hl => by simp at hl
  | (true, v) :: t, x :: l, hl => by
    obtain ⟨r, e, hr, hi⟩ := scatter_spec t l (by simpa using hl)
    refine ⟨x :: r, by simp [Blending.maskedScatter, e], by simp [hr], fun i h => ?_⟩
    cases i with
    | zero => simp
    | succ i => simpa using hi i (by simpa using h)

/-- As many background pixels as cameras: the values are given out in the order of the pixels, whatever image they are in. -/
theorem hard_batch_order {first : List (Int × ℝ)} {l : List ℝ} (h1 : l.length ≠ 1)
    (h2 : l.length = first.countP fun q => decide (q.1 < 0)) :
    ∃ r, hardDepth first (.batch l) = .ok r ∧ r.length = first.length ∧ ∀ i (h : i < first.length),
      r[i]? = if first[i].1 < 0 then l[(first.take i).countP fun q => decide (q.1 < 0)]? else some first[i].2 := by
  obtain ⟨r, e, hr, hi⟩ := scatter_spec (first.map fun q : Int × ℝ => (decide (q.1 < 0), q.2)) l (by rw [List.countP_map]; exact h2)
  refine ⟨r, by simp only [hardDepth, if_neg h1, if_pos h2, e], by simpa using hr, fun i h => ?_⟩
  have := hi i (by simpa using h)
  rw [this]
  simp only [List.getElem_map, decide_eq_true_eq, ← List.map_take, List.countP_map]
  rfl

theorem cums_length : ∀ (l : List ℝ) (S : ℝ), (cums S l).length = l.length
  | [], _ => rfl
  | _ :: t, _ => by simp [cums, cums_length t]

theorem diffs_length : ∀ (l : List ℝ) (S : ℝ), (diffs S l).length = l.length
  | [], _ => rfl
  | _ :: t, _ => by simp [diffs, diffs_length t]

theorem weights_fill (zfar : ℝ) : ∀ (l : List (ℝ × ℝ)) (S : ℝ), 0 ≤ S → (∀ q ∈ l, 0 ≤ q.1) →
    (List.zipWith (· * ·) (diffs (min 1 S) ((cums S (l.map (fun q => q.1) ++ [1])).map (min 1))) (l.map (fun q => q.2) ++ [zfar])).sum =
      fill zfar (1 - min 1 S) l
  | [], S, hS, _ => by
    have : min 1 (S + 1) = 1 := min_eq_left (by linarith)
    simp [fill, this, cums, diffs]
  | (p, z) :: t, S, hS, hp => by
    have hp0 : 0 ≤ p := hp (p, z) (by simp)
    have ih := weights_fill zfar t (S + p) (by linarith) (fun q hq => hp q (by simp [hq]))
    have e : min p (1 - min 1 S) = min 1 (S + p) - min 1 S := by
      rcases le_total 1 S with h | h
      · rw [min_eq_left h, min_eq_left (show (1 : ℝ) ≤ S + p by linarith), sub_self, min_eq_right hp0]
      · rw [min_eq_right h]
        rcases le_total 1 (S + p) with h' | h'
        · rw [min_eq_left h', min_eq_right (by linarith)]
        · rw [min_eq_right h', min_eq_left (by linarith)]; ring
    have e2 : 1 - min 1 S - min p (1 - min 1 S) = 1 - min 1 (S + p) := by rw [e]; ring
    rw [fill, e2, ← ih, e]
    simp [cums, diffs]

/-- The depth of a pixel: the fragments in order take their share, the background the rest. -/
theorem softDepth_spec {sigma : ℝ} {f : Blending.Frag} (zfar : ℝ) :
    softDepth sigma f [zfar] = .ok (fill zfar 1 ((List.range f.K).map fun k => (Blending.sigmoid (-f.dist k / sigma) * Blending.mask f k, f.zbuf k))) := by
  unfold softDepth
  simp only []
  rw [if_pos (by simp [diffs_length, cums_length])]
  congr 1
  have h := weights_fill zfar ((List.range f.K).map fun k => (Blending.sigmoid (-f.dist k / sigma) * Blending.mask f k, f.zbuf k)) 0 le_rfl ?_
  · have h0 : min (1 : ℝ) 0 = 0 := min_eq_right zero_le_one
    rw [h0] at h
    simp only [List.map_map, Function.comp_def, sub_zero] at h
    exact h
  · intro q hq
    obtain ⟨k, _, rfl⟩ := List.mem_map.mp hq
    refine mul_nonneg ?_ ?_
    · unfold Blending.sigmoid; positivity
    · unfold Blending.mask; split_ifs <;> norm_num

/-- Two or more values of `zfar`: an error. -/
theorem softDepth_batch {sigma : ℝ} {f : Blending.Frag} (hK : 0 < f.K) {zfar : List ℝ} (h : 1 < zfar.length) :
    softDepth sigma f zfar = .error .runtime := by
  unfold softDepth
  simp only []
  rw [if_neg (by simp [diffs_length, cums_length]; omega), if_neg (by simp [diffs_length, cums_length]; omega)]

/-- What the fragments and the background take adds up to what there was. -/
theorem fill_const (z : ℝ) : ∀ (l : List (ℝ × ℝ)) (left : ℝ), (∀ q ∈ l, q.2 = z) → fill z left l = left * z
  | [], left, _ => rfl
  | (p, y) :: t, left, h => by
    have hy : y = z := h (p, y) (by simp)
    rw [fill, fill_const z t _ fun q hq => h q (by simp [hq]), hy]; ring

/-- The depth is between the smallest and the largest depth of the fragments that count and of the background. -/
theorem fill_bounds {zfar lo hi : ℝ} (hlo : lo ≤ zfar) (hhi : zfar ≤ hi) : ∀ (l : List (ℝ × ℝ)) (left : ℝ), 0 ≤ left →
    (∀ q ∈ l, 0 ≤ q.1) → (∀ q ∈ l, q.1 ≠ 0 → lo ≤ q.2 ∧ q.2 ≤ hi) → left * lo ≤ fill zfar left l ∧ fill zfar left l ≤ left * hi
  | [], left, h0, _, _ => ⟨mul_le_mul_of_nonneg_left hlo h0, mul_le_mul_of_nonneg_left hhi h0⟩
  | (p, z) :: t, left, h0, hp, hb => by
    have hp0 : 0 ≤ p := hp (p, z) (by simp)
    have hm : 0 ≤ min p left := le_min hp0 h0
    have ih := fill_bounds hlo hhi t (left - min p left) (sub_nonneg.mpr (min_le_right _ _)) (fun q hq => hp q (by simp [hq]))
      (fun q hq => hb q (by simp [hq]))
    have hz : min p left * lo ≤ min p left * z ∧ min p left * z ≤ min p left * hi := by
      by_cases h : p = 0
      · have : min p left = 0 := by rw [h]; exact min_eq_left h0
        rw [this]; simp
      · obtain ⟨h1, h2⟩ := hb (p, z) (by simp) h
        exact ⟨mul_le_mul_of_nonneg_left h1 hm, mul_le_mul_of_nonneg_left h2 hm⟩
    rw [fill]
    constructor <;> nlinarith [ih.1, ih.2, hz.1, hz.2]

/-- A pixel without faces has the depth `zfar`. -/
theorem softDepth_empty {sigma : ℝ} {f : Blending.Frag} (zfar : ℝ) (h : ∀ k < f.K, f.face k < 0) : softDepth sigma f [zfar] = .ok zfar := by
  rw [softDepth_spec]
  have : ∀ (l : List ℝ) (left : ℝ), 0 ≤ left → fill zfar left (l.map fun z => (0, z)) = left * zfar := by
    intro l
    induction l with
    | nil => intro left _; rfl
    | cons z t ih =>
      intro left h0
      simp only [List.map_cons, fill, min_eq_left h0, sub_zero, ih left h0]; ring
  have e : ((List.range f.K).map fun k => (Blending.sigmoid (-f.dist k / sigma) * Blending.mask f k, f.zbuf k)) =
      ((List.range f.K).map f.zbuf).map fun z => ((0 : ℝ), z) := by
    rw [List.map_map]
    refine List.map_congr_left fun k hk => ?_
    have := h k (List.mem_range.mp hk)
    simp [Blending.mask, not_le.mpr this]
  rw [e, this _ 1 zero_le_one, one_mul]

/-- The depth of any pixel lies between the depths of its faces and `zfar`. -/
theorem softDepth_bounds {sigma : ℝ} {f : Blending.Frag} {zfar lo hi : ℝ} (hlo : lo ≤ zfar) (hhi : zfar ≤ hi)
    (hf : ∀ k < f.K, 0 ≤ f.face k → lo ≤ f.zbuf k ∧ f.zbuf k ≤ hi) : ∃ z, softDepth sigma f [zfar] = .ok z ∧ lo ≤ z ∧ z ≤ hi := by
  refine ⟨_, softDepth_spec zfar, ?_⟩
  have := fill_bounds hlo hhi ((List.range f.K).map fun k => (Blending.sigmoid (-f.dist k / sigma) * Blending.mask f k, f.zbuf k)) 1 zero_le_one ?_ ?_
  · simpa using this
  · intro q hq
    obtain ⟨k, _, rfl⟩ := List.mem_map.mp hq
    refine mul_nonneg ?_ ?_
    · unfold Blending.sigmoid; positivity
    · unfold Blending.mask; split_ifs <;> norm_num
  · intro q hq hq0
    obtain ⟨k, hk, rfl⟩ := List.mem_map.mp hq
    refine hf k (List.mem_range.mp hk) ?_
    by_contra hneg
    exact hq0 (by simp [Blending.mask, hneg])

/-! ### Examples -/

/-- Two images of two pixels, one background pixel in the first and one in the second: here every image gets its own `zfar`; with both in
the second image the first of them gets that of the first camera. -/
example : hardDepth [(-1, -1), (0, 2), (3, 4), (-1, -1)] (.batch [10, 20]) = .ok [10, 2, 4, 20] ∧
    hardDepth [(1, 3), (0, 2), (-1, -1), (-1, -1)] (.batch [10, 20]) = .ok [3, 2, 10, 20] ∧
    hardDepth [(1, 3), (-1, -1), (-1, -1), (-1, -1)] (.batch [10, 20]) = .error .runtime := by
  refine ⟨?_, ?_, ?_⟩ <;> simp [hardDepth, Blending.maskedScatter, List.countP, List.countP.go]

/-- Two fragments that take one half and three quarters: the second gets the remaining half and the background nothing. -/
example : fill 100 1 [(1 / 2, 2), (3 / 4, 4)] = 3 := by norm_num [fill]

def exFrags : Frags := ⟨2, 1, 1, 1, fun p => if p = 0 then 0 else 1, fun _ i => if i = 0 then 1 / 2 else 1 / 4⟩

def exVerts : List (V3 ℝ) := [⟨0, 0, 4⟩, ⟨4, 0, 4⟩, ⟨0, 4, 4⟩, ⟨4, 4, 8⟩]

def exMat : Materials := ⟨⟨[2, 3], fun _ => 1⟩, ⟨[2, 3], fun ix => if ix.headD 0 = 0 then 1 else 1 / 2⟩, ⟨[2, 3], fun _ => 0⟩, ⟨[2], fun _ => 64⟩⟩

/-- The hypotheses of the theorem about one material per mesh hold for a batch of two meshes. -/
example : ∃ r, phong exFrags exVerts exVerts [(0, 1, 2), (1, 3, 2)] (.point ⟨[1, 3], fun _ => 1⟩ ⟨[1, 3], fun _ => 1⟩ ⟨[1, 3], fun _ => 1⟩
      ⟨[1, 3], fun _ => 0⟩) ⟨[2, 3], fun _ => 0⟩ exMat ⟨[2, 1, 1, 1, 3], fun _ => 1⟩ = .ok r ∧ r.shape = [2, 1, 1, 2, 3] := by
  obtain ⟨r, h1, h2, _⟩ := phong_materials (fr := exFrags) (verts := exVerts) (normals := exVerts) (faces := [(0, 1, 2), (1, 3, 2)])
    (l := .point ⟨[1, 3], fun _ => 1⟩ ⟨[1, 3], fun _ => 1⟩ ⟨[1, 3], fun _ => 1⟩ ⟨[1, 3], fun _ => 0⟩) (camera := ⟨[2, 3], fun _ => 0⟩)
    (texels := ⟨[2, 1, 1, 1, 3], fun _ => 1⟩) (mt := exMat) (L := 1) (C := 2) (by decide) (by decide) (by decide) (by decide)
    (by intro p hp; simp only [exFrags]; split_ifs <;> simp) rfl ⟨rfl, rfl, rfl, rfl⟩ (Or.inl rfl) rfl (Or.inr rfl) ⟨rfl, rfl, rfl, rfl⟩ rfl
  exact ⟨r, h1, h2⟩

/-- The interpolated point of the first of these fragments. -/
example : pointAt [(0, 1, 2), (1, 3, 2)] exVerts (exFrags.pix 0) (exFrags.bary 0) = ⟨1, 1, 4⟩ := by
  simp [pointAt, exVerts, exFrags]
  ext <;> norm_num

/-- The hypotheses of the theorems about flat and Gouraud shading hold for the same batch, with two fragments of one pixel empty. -/
example : (∃ r, flatShade ⟨2, 1, 1, 2, fun p => if p = 0 then 1 else -1, fun _ _ => 1 / 3⟩ exVerts [⟨0, 0, 1⟩, ⟨1, 0, 0⟩] [(0, 1, 2), (1, 3, 2)]
      (.directional ⟨[2, 3], fun _ => 1⟩ ⟨[2, 3], fun _ => 1⟩ ⟨[2, 3], fun _ => 1⟩ ⟨[2, 3], fun _ => 1⟩) ⟨[1, 3], fun _ => 0⟩ exMat
      ⟨[2, 1, 1, 2, 3], fun _ => 1⟩ = .ok r ∧ r.shape = [2, 1, 1, 2, 3]) ∧
    ∃ r, gouraud exFrags exVerts exVerts ⟨[4, 3], fun _ => 1⟩ [0, 0, 1, 1] [(0, 1, 2), (1, 3, 2)] (.ambient ⟨[2, 3], fun _ => 1⟩)
      ⟨[1, 3], fun _ => 0⟩ exMat = .ok r ∧ r.shape = [2, 1, 1, 1, 3] := by
  constructor
  · obtain ⟨r, h1, h2, _⟩ := flat_spec (fr := ⟨2, 1, 1, 2, fun p => if p = 0 then 1 else -1, fun _ _ => 1 / 3⟩) (verts := exVerts)
      (fn := [⟨0, 0, 1⟩, ⟨1, 0, 0⟩]) (faces := [(0, 1, 2), (1, 3, 2)])
      (l := .directional ⟨[2, 3], fun _ => 1⟩ ⟨[2, 3], fun _ => 1⟩ ⟨[2, 3], fun _ => 1⟩ ⟨[2, 3], fun _ => 1⟩) (camera := ⟨[1, 3], fun _ => 0⟩)
      (mt := exMat) (texels := ⟨[2, 1, 1, 2, 3], fun _ => 1⟩) (L := 2) (C := 1) (M := 2) (K' := 2) (by decide) (by decide) rfl (by decide)
      (by intro p hp; dsimp only; split_ifs <;> simp) rfl ⟨rfl, rfl, rfl, rfl⟩ (Or.inr rfl) rfl (Or.inl rfl) ⟨rfl, rfl, rfl, rfl⟩ (Or.inr rfl)
      (Or.inr (Or.inl ⟨rfl, rfl⟩))
    exact ⟨r, h1, h2⟩
  · obtain ⟨r, h1, h2, _⟩ := gouraud_spec (fr := exFrags) (verts := exVerts) (normals := exVerts) (colors := ⟨[4, 3], fun _ => 1⟩)
      (meshIdx := [0, 0, 1, 1]) (faces := [(0, 1, 2), (1, 3, 2)]) (l := .ambient ⟨[2, 3], fun _ => 1⟩) (camera := ⟨[1, 3], fun _ => 0⟩) (mt := exMat)
      (L := 2) (C := 1) (M := 2) (by decide) (by decide) rfl rfl rfl (by decide) rfl (Or.inr rfl) rfl (Or.inl rfl) ⟨rfl, rfl, rfl, rfl⟩
      (Or.inr rfl) (by decide) (by decide) (by intro p hp; simp only [exFrags]; split_ifs <;> simp)
    exact ⟨r, h1, h2⟩

end

end P3D.Light
