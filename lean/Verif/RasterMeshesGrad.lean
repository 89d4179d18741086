/-
`RasterizeMeshesBackwardCpu`, `csrc/rasterize_meshes/rasterize_meshes_cpu.cpp:391-530`, and `RasterizeMeshesBackwardCudaKernel`,
`csrc/rasterize_meshes/rasterize_meshes.cu:433-564`.

Numbers are an ordered field, the real numbers for derivatives.  The incoming tensors are their flattened contents.  Indices of faces are
valid (they are those of the forward pass); the conversion of `int64_t` to `int` and overflow are not modelled.
-/
import Verif.RasterMeshes
import Verif.RasterPointsGrad
import Verif.Chunks
import Mathlib.Tactic.IntervalCases

set_option linter.unusedSectionVars false

namespace P3D.Raster

open Geom Scatter Chunks

section defs
variable {F : Type} [Field F] [LinearOrder F] [IsStrictOrderedRing F]

/-- The vertices of a face. -/
abbrev Tri (F : Type) := V3 F × V3 F × V3 F

/-- The incoming data of one (n, y, x, k): face, gradients of depth, barycentric coordinates and signed distance. -/
structure MCell (F : Type) where
  face : ℤ
  gz : F
  gb : V3 F
  gd : F

/-- The flattened incoming tensors. -/
structure MData (F : Type) where
  pix : Nat → ℤ
  gz : Nat → F
  gb : Nat → F
  gd : Nat → F

/-- The entry at flat index `i`. -/
def MData.cell (m : MData F) (i : Nat) : MCell F := ⟨m.pix i, m.gz i, ⟨m.gb (i * 3 + 0), m.gb (i * 3 + 1), m.gb (i * 3 + 2)⟩, m.gd i⟩

/-- rasterize_meshes_cpu.cpp:441-522: the additions for one face, entries (vertex of the face, coordinate). -/
def cpuFace (persp clp : Bool) (v : Tri F) (p : V2 F) (c : MCell F) : List ((Nat × Nat) × F) :=
  let z0 := v.1.z
  let z1 := v.2.1.z
  let z2 := v.2.2.z
  let b0 := bary p (xy v.1) (xy v.2.1) (xy v.2.2)
  let b := if !persp then b0 else perspCorrect b0 z0 z1 z2
  let bc := if !clp then b else clip b
  let sign : F := if inside b then -1 else 1
  let dd := pointTriBackward p (xy v.1) (xy v.2.1) (xy v.2.2) (sign * c.gd)
  let g := c.gb + c.gz • (⟨z0, z1, z2⟩ : V3 F)
  let g := if clp then clipBackward b g else g
  let pg := perspCorrectBackward b0 z0 z1 z2 g
  let g := if persp then pg.1 else g
  let db := baryBackward p (xy v.1) (xy v.2.1) (xy v.2.2) g
  (if persp then [((0, 2), pg.2.1), ((1, 2), pg.2.2.1), ((2, 2), pg.2.2.2)] else []) ++
  [((0, 0), db.2.1.x + dd.2.1.x), ((0, 1), db.2.1.y + dd.2.1.y), ((0, 2), c.gz * bc.x),
   ((1, 0), db.2.2.1.x + dd.2.2.1.x), ((1, 1), db.2.2.1.y + dd.2.2.1.y), ((1, 2), c.gz * bc.y),
   ((2, 0), db.2.2.2.x + dd.2.2.2.x), ((2, 1), db.2.2.2.y + dd.2.2.2.y), ((2, 2), c.gz * bc.z)]

/-- rasterize_meshes.cu:483-562: the atomic additions for one face, at the offsets from `f * 9`. -/
def cudaFace (persp clp : Bool) (v : Tri F) (p : V2 F) (c : MCell F) : List (Nat × F) :=
  let z0 := v.1.z
  let z1 := v.2.1.z
  let z2 := v.2.2.z
  let b0 := bary p (xy v.1) (xy v.2.1) (xy v.2.2)
  let b := if !persp then b0 else perspCorrect b0 z0 z1 z2
  let bc := if !clp then b else clip b
  let sign : F := if inside b then -1 else 1
  let dd := pointTriBackward p (xy v.1) (xy v.2.1) (xy v.2.2) (sign * c.gd)
  let gs := c.gb + c.gz • (⟨z0, z1, z2⟩ : V3 F)
  let g := if clp then clipBackward b0 gs else gs
  let pg := perspCorrectBackward b0 z0 z1 z2 g
  let g := if persp then pg.1 else g
  let dz : V3 F := if persp then ⟨pg.2.1, pg.2.2.1, pg.2.2.2⟩ else ⟨0, 0, 0⟩
  let db := baryBackward p (xy v.1) (xy v.2.1) (xy v.2.2) g
  [(0, db.2.1.x + dd.2.1.x), (1, db.2.1.y + dd.2.1.y), (2, c.gz * bc.x + dz.x),
   (3, db.2.2.1.x + dd.2.2.1.x), (4, db.2.2.1.y + dd.2.2.1.y), (5, c.gz * bc.y + dz.y),
   (6, db.2.2.2.x + dd.2.2.2.x), (7, db.2.2.2.y + dd.2.2.2.y), (8, c.gz * bc.z + dz.z)]

/-- rasterize_meshes_cpu.cpp:434-524: one (n, y, x, k).  The entry `[f][i][c]` has the key `(3 f + i, c)`. -/
def cpuCell (persp clp : Bool) (faces : Nat → Tri F) (p : V2 F) (c : MCell F) : List ((Nat × Nat) × F) :=
  if c.face < 0 then []
  else (cpuFace persp clp (faces c.face.toNat) p c).map fun a => ((c.face.toNat * 3 + a.1.1, a.1.2), a.2)

/-- rasterize_meshes_cpu.cpp:412-528. -/
def cpuAdds (persp clp : Bool) (faces : Nat → Tri F) (N H W K : Nat) (m : MData F) : List ((Nat × Nat) × F) :=
  (List.range N).flatMap fun n => (List.range H).flatMap fun y => (List.range W).flatMap fun x => (List.range K).flatMap fun k =>
    cpuCell persp clp faces ⟨pixToNdc (W - 1 - x) W H, pixToNdc (H - 1 - y) H W⟩ (m.cell (((n * H + y) * W + x) * K + k))

/-- `RasterizeMeshesBackwardCpu`: `grad_face_verts`. -/
def cpuBackward (persp clp : Bool) (faces : Nat → Tri F) (N H W K : Nat) (m : MData F) : Nat × Nat → F :=
  scatterAdd (cpuAdds persp clp faces N H W K m)

/-- rasterize_meshes.cu:466-562: one turn of the loop over `k`. -/
def cudaCell (persp clp : Bool) (faces : Nat → Tri F) (p : V2 F) (c : MCell F) : List (Nat × F) :=
  if c.face < 0 then []
  else (cudaFace persp clp (faces c.face.toNat) p c).map fun a => (c.face.toNat * 9 + a.1, a.2)

/-- rasterize_meshes.cu:452-563: one turn of the grid-stride loop. -/
def cudaItem (persp clp : Bool) (faces : Nat → Tri F) (H W K : Nat) (m : MData F) (t : Nat) : List (Nat × F) :=
  let n := t / (H * W)
  let pix := t % (H * W)
  let yi := H - 1 - pix / W
  let xi := W - 1 - pix % W
  (List.range K).flatMap fun k =>
    cudaCell persp clp faces ⟨pixToNdc xi W H, pixToNdc yi H W⟩ (m.cell (n * H * W * K + pix * K + k))

/-- The atomic additions of a launch. -/
def cudaAdds (persp clp : Bool) (faces : Nat → Tri F) (grid block N H W K : Nat) (m : MData F) : List (Nat × F) :=
  (gridStride grid block (N * H * W)).flatMap (cudaItem persp clp faces H W K m)

/-! ### Specification -/

/-- The pairing of the incoming gradients with the depth, the barycentric coordinates and the signed distance which the forward pass
computes for this face and pixel. -/
def faceLoss (cfg : RCfg F) (v : Tri F) (p : V2 F) (c : MCell F) : F :=
  let it : FItem F := ⟨0, v.1, v.2.1, v.2.2, -1⟩
  c.gz * faceDepth cfg it p.x p.y + V3.dot c.gb (faceBaryClip cfg it p.x p.y)
    + c.gd * (if inside (faceBary cfg it p.x p.y) then -faceDist it p.x p.y else faceDist it p.x p.y)

/-- The scalar whose gradient is wanted, for fixed `pix_to_face`. -/
def meshLoss (cfg : RCfg F) (faces : Nat → Tri F) (N H W K : Nat) (m : MData F) : F :=
  ((List.range N).map fun n => ((List.range H).map fun y => ((List.range W).map fun x => ((List.range K).map fun k =>
    let c := m.cell (((n * H + y) * W + x) * K + k)
    if c.face < 0 then 0 else faceLoss cfg (faces c.face.toNat) ⟨centre x W H, centre y H W⟩ c).sum).sum).sum).sum

/-- The loss of one face is the pairing with the fragment of the forward pass. -/
theorem faceLoss_hit {cfg : RCfg F} {xf yf : F} {it : FItem F} {d : F} {fr : Frag F} (h : faceHit cfg xf yf it = some (d, fr))
    (c : MCell F) :
    faceLoss cfg (it.v0, it.v1, it.v2) ⟨xf, yf⟩ c = c.gz * fr.z + V3.dot c.gb fr.bary + c.gd * fr.dist := by
  unfold faceHit at h
  simp only at h
  split at h
  · exact absurd h (by simp)
  split at h
  · exact absurd h (by simp)
  split at h
  · exact absurd h (by simp)
  split at h
  · exact absurd h (by simp)
  split at h
  · exact absurd h (by simp)
  simp only [Option.some.injEq, Prod.mk.injEq] at h
  obtain ⟨_, rfl⟩ := h
  rfl

end defs

/-! ## The derivative -/

section deriv

/-- Derivative at zero of a curve in space. -/
def HD3 (f : ℝ → V3 ℝ) (f' : V3 ℝ) : Prop :=
  HasDerivAt (fun t => (f t).x) f'.x 0 ∧ HasDerivAt (fun t => (f t).y) f'.y 0 ∧ HasDerivAt (fun t => (f t).z) f'.z 0

theorem HD3.dot {f : ℝ → V3 ℝ} {f' : V3 ℝ} (h : HD3 f f') (g : V3 ℝ) : HasDerivAt (fun t => V3.dot g (f t)) (V3.dot g f') 0 :=
  ((h.1.const_mul g.x).add (h.2.1.const_mul g.y)).add (h.2.2.const_mul g.z)

theorem hd3_of {f : ℝ → V3 ℝ} {φ : V3 ℝ → ℝ} (h : ∀ g, HasDerivAt (fun t => V3.dot g (f t)) (φ g) 0) :
    ∃ f', HD3 f f' ∧ ∀ g, V3.dot g f' = φ g := by
  have hf : HD3 f ⟨φ ⟨1, 0, 0⟩, φ ⟨0, 1, 0⟩, φ ⟨0, 0, 1⟩⟩ := by
    refine ⟨hd_congr (h ⟨1, 0, 0⟩) ?_ rfl, hd_congr (h ⟨0, 1, 0⟩) ?_ rfl, hd_congr (h ⟨0, 0, 1⟩) ?_ rfl⟩ <;>
      intro t <;> simp [V3.dot]
  exact ⟨_, hf, fun g => (hf.dot g).unique (h g)⟩

/-- The perspective correction along curves. -/
theorem persp_curve {b : ℝ → V3 ℝ} {b' : V3 ℝ} (hb : HD3 b b') {z0 z1 z2 : ℝ → ℝ} {e0 e1 e2 : ℝ} (h0 : HasDerivAt z0 e0 0)
    (h1 : HasDerivAt z1 e1 0) (h2 : HasDerivAt z2 e2 0)
    (hd : kEps < (b 0).x * z1 0 * z2 0 + (b 0).y * z0 0 * z2 0 + (b 0).z * z0 0 * z1 0) (g : V3 ℝ) :
    HasDerivAt (fun t => V3.dot g (perspCorrect (b t) (z0 t) (z1 t) (z2 t)))
      (V3.dot (perspCorrectBackward (b 0) (z0 0) (z1 0) (z2 0) g).1 b' + (perspCorrectBackward (b 0) (z0 0) (z1 0) (z2 0) g).2.1 * e0
        + (perspCorrectBackward (b 0) (z0 0) (z1 0) (z2 0) g).2.2.1 * e1
        + (perspCorrectBackward (b 0) (z0 0) (z1 0) (z2 0) g).2.2.2 * e2) 0 := by
  have w0 := (hb.1.mul h1).mul h2
  have w1 := (hb.2.1.mul h0).mul h2
  have w2 := (hb.2.2.mul h0).mul h1
  have hD := (w0.add w1).add w2
  have hN := ((w0.const_mul g.x).add (w1.const_mul g.y)).add (w2.const_mul g.z)
  have hk := kEps_pos (K := ℝ)
  have hne : (b 0).x * z1 0 * z2 0 + (b 0).y * z0 0 * z2 0 + (b 0).z * z0 0 * z1 0 ≠ 0 := (hk.trans hd).ne'
  have hq := hN.div hD (by simpa using hne)
  have hev := hD.continuousAt.eventually (lt_mem_nhds (a := (kEps : ℝ)) (by simpa using hd))
  refine HasDerivAt.congr_of_eventuallyEq (hd_congr hq (fun t => rfl) ?_) ?_
  · simp only [perspCorrectBackward, max_eq_left hd.le, V3.dot, Pi.add_apply, Pi.mul_apply]
    rw [eq_div_iff (pow_ne_zero 2 hne)]
    generalize (b 0).x = bx at *
    generalize (b 0).y = bY at *
    generalize (b 0).z = bz at *
    generalize z0 0 = y0 at *
    generalize z1 0 = y1 at *
    generalize z2 0 = y2 at *
    generalize hDD : bx * y1 * y2 + bY * y0 * y2 + bz * y0 * y1 = D at *
    field_simp
    rw [← hDD]
    ring
  · filter_upwards [hev] with t ht
    simp only [Pi.add_apply, Pi.mul_apply] at ht
    simp only [perspCorrect, V3.dot, Pi.div_apply, Pi.add_apply, Pi.mul_apply]
    rw [max_eq_left ht.le]
    ring

theorem pos_part_curve {f : ℝ → ℝ} {c : ℝ} (hl : HasDerivAt f c 0) (ha : f 0 ≠ 0) :
    HasDerivAt (fun t : ℝ => max (f t) 0) ((if f 0 < 0 then 0 else 1) * c) 0 := by
  rcases lt_or_gt_of_ne ha with h | h
  · rw [if_pos h]
    have hev := hl.continuousAt.eventually (gt_mem_nhds (a := (0 : ℝ)) h)
    refine HasDerivAt.congr_of_eventuallyEq (f := fun _ => (0 : ℝ)) ?_ ?_
    · simpa using hasDerivAt_const (0 : ℝ) (0 : ℝ)
    · filter_upwards [hev] with t ht
      exact max_eq_right ht.le
  · rw [if_neg h.not_gt, one_mul]
    have hev := hl.continuousAt.eventually (lt_mem_nhds (a := (0 : ℝ)) h)
    refine HasDerivAt.congr_of_eventuallyEq hl ?_
    filter_upwards [hev] with t ht
    exact max_eq_left ht.le

/-- The clipping along curves. -/
theorem clip_curve {b : ℝ → V3 ℝ} {b' : V3 ℝ} (hb : HD3 b b') (hx : (b 0).x ≠ 0) (hy : (b 0).y ≠ 0) (hz : (b 0).z ≠ 0)
    (hs : max (b 0).x 0 + max (b 0).y 0 + max (b 0).z 0 ≠ 1 / 10 ^ 5) (g : V3 ℝ) :
    HasDerivAt (fun t : ℝ => V3.dot g (clip (b t))) (V3.dot (clipBackward (b 0) g) b') 0 := by
  have w0 := pos_part_curve hb.1 hx
  have w1 := pos_part_curve hb.2.1 hy
  have w2 := pos_part_curve hb.2.2 hz
  have hS := (w0.add w1).add w2
  have hN := ((w0.const_mul g.x).add (w1.const_mul g.y)).add (w2.const_mul g.z)
  rcases lt_or_gt_of_ne hs with h | h
  · have hev := hS.continuousAt.eventually (gt_mem_nhds (a := (1 / 10 ^ 5 : ℝ)) (by simpa using h))
    refine HasDerivAt.congr_of_eventuallyEq (hd_congr (hN.mul_const (10 ^ 5 : ℝ)) (fun t => rfl) ?_) ?_
    · simp only [clipBackward, if_pos h, V3.dot]
      generalize (if (b 0).x < 0 then (0 : ℝ) else 1) = c0
      generalize (if (b 0).y < 0 then (0 : ℝ) else 1) = c1
      generalize (if (b 0).z < 0 then (0 : ℝ) else 1) = c2
      ring
    · filter_upwards [hev] with t ht
      simp only [Pi.add_apply] at ht
      simp only [clip, V3.dot, Pi.add_apply]
      rw [max_eq_right ht.le]
      ring
  · have hev := hS.continuousAt.eventually (lt_mem_nhds (a := (1 / 10 ^ 5 : ℝ)) (by simpa using h))
    have hne : max (b 0).x 0 + max (b 0).y 0 + max (b 0).z 0 ≠ 0 := (lt_trans (by positivity) h).ne'
    have hq := hN.div hS (by simpa using hne)
    refine HasDerivAt.congr_of_eventuallyEq (hd_congr hq (fun t => rfl) ?_) ?_
    · simp only [clipBackward, if_neg h.not_gt, V3.dot, Pi.add_apply]
      rw [eq_div_iff (pow_ne_zero 2 hne)]
      generalize (if (b 0).x < 0 then (0 : ℝ) else 1) = c0
      generalize (if (b 0).y < 0 then (0 : ℝ) else 1) = c1
      generalize (if (b 0).z < 0 then (0 : ℝ) else 1) = c2
      generalize hDD : max (b 0).x 0 + max (b 0).y 0 + max (b 0).z 0 = D at *
      field_simp
      rw [← hDD]
      ring
    · filter_upwards [hev] with t ht
      simp only [Pi.add_apply] at ht
      simp only [clip, V3.dot, Pi.div_apply, Pi.add_apply]
      rw [max_eq_left ht.le]
      ring

/-- The barycentric coordinates before clipping. -/
noncomputable def rawBary (persp : Bool) (v : Tri ℝ) (p : V2 ℝ) : V3 ℝ :=
  if persp then perspCorrect (bary p (xy v.1) (xy v.2.1) (xy v.2.2)) v.1.z v.2.1.z v.2.2.z
  else bary p (xy v.1) (xy v.2.1) (xy v.2.2)

/-- Pixels where the outputs of the forward pass are differentiable: the regularized area is not zero, the denominator of the perspective
correction is not clamped, no coordinate changes sign, the sum is not at its bound, no side is shorter than the bound and one is
strictly the closest. -/
structure Regular (persp clp : Bool) (v : Tri ℝ) (p : V2 ℝ) : Prop where
  area : edge (xy v.2.2) (xy v.1) (xy v.2.1) + kEps ≠ 0
  denom : persp = true → kEps < (bary p (xy v.1) (xy v.2.1) (xy v.2.2)).x * v.2.1.z * v.2.2.z
    + (bary p (xy v.1) (xy v.2.1) (xy v.2.2)).y * v.1.z * v.2.2.z + (bary p (xy v.1) (xy v.2.1) (xy v.2.2)).z * v.1.z * v.2.1.z
  side : (0 < (rawBary persp v p).x ∧ 0 < (rawBary persp v p).y ∧ 0 < (rawBary persp v p).z)
    ∨ (rawBary persp v p).x < 0 ∨ (rawBary persp v p).y < 0 ∨ (rawBary persp v p).z < 0
  clip : clp = true → (rawBary persp v p).x ≠ 0 ∧ (rawBary persp v p).y ≠ 0 ∧ (rawBary persp v p).z ≠ 0
    ∧ max (rawBary persp v p).x 0 + max (rawBary persp v p).y 0 + max (rawBary persp v p).z 0 ≠ 1 / 10 ^ 5
  long01 : kEps < V2.dot (xy v.2.1 - xy v.1) (xy v.2.1 - xy v.1)
  long02 : kEps < V2.dot (xy v.2.2 - xy v.1) (xy v.2.2 - xy v.1)
  long12 : kEps < V2.dot (xy v.2.2 - xy v.2.1) (xy v.2.2 - xy v.2.1)
  closest : (pointLine p (xy v.1) (xy v.2.1) < pointLine p (xy v.1) (xy v.2.2)
      ∧ pointLine p (xy v.1) (xy v.2.1) < pointLine p (xy v.2.1) (xy v.2.2))
    ∨ (pointLine p (xy v.1) (xy v.2.2) < pointLine p (xy v.1) (xy v.2.1)
      ∧ pointLine p (xy v.1) (xy v.2.2) < pointLine p (xy v.2.1) (xy v.2.2))
    ∨ (pointLine p (xy v.2.1) (xy v.2.2) < pointLine p (xy v.1) (xy v.2.1)
      ∧ pointLine p (xy v.2.1) (xy v.2.2) < pointLine p (xy v.1) (xy v.2.2))

/-- A face whose vertices move along straight lines. -/
def lineTri (v d : Tri ℝ) (t : ℝ) : Tri ℝ := (line3 v.1 d.1 t, line3 v.2.1 d.2.1 t, line3 v.2.2 d.2.2 t)

theorem xy_line (v d : V3 ℝ) (t : ℝ) : xy (line3 v d t) = line2 (xy v) (xy d) t := rfl

theorem z_line (v d : V3 ℝ) : HasDerivAt (fun t : ℝ => (line3 v d t).z) d.z 0 := hd_lin v.z d.z

theorem lineTri_zero (v d : Tri ℝ) : lineTri v d 0 = v := by
  obtain ⟨v0, v1, v2⟩ := v
  simp [lineTri, line3]

theorem line2_const (p : V2 ℝ) (t : ℝ) : line2 p 0 t = p := by
  simp [line2, V2.ext_iff]

/-- The vector of additions of the backward pass, paired with a direction. -/
def pairTri (l : List ((Nat × Nat) × ℝ)) (d : Tri ℝ) : ℝ :=
  (l.map fun a => a.2 * coord (if a.1.1 = 0 then d.1 else if a.1.1 = 1 then d.2.1 else d.2.2) a.1.2).sum

/-- The coordinates before clipping along a line. -/
theorem rawBary_curve {persp clp : Bool} {v : Tri ℝ} {p : V2 ℝ} (h : Regular persp clp v p) (d : Tri ℝ) :
    ∃ b', HD3 (fun t => rawBary persp (lineTri v d t) p) b' ∧ ∀ g, V3.dot g b' =
      (let b0 := bary p (xy v.1) (xy v.2.1) (xy v.2.2)
       let pg := perspCorrectBackward b0 v.1.z v.2.1.z v.2.2.z g
       let db := baryBackward p (xy v.1) (xy v.2.1) (xy v.2.2) (if persp then pg.1 else g)
       V2.dot db.2.1 (xy d.1) + V2.dot db.2.2.1 (xy d.2.1) + V2.dot db.2.2.2 (xy d.2.2)
         + if persp then pg.2.1 * d.1.z + pg.2.2.1 * d.2.1.z + pg.2.2.2 * d.2.2.z else 0) := by
  obtain ⟨b0', hb0, e0⟩ := hd3_of (f := fun t => bary p (xy (lineTri v d t).1) (xy (lineTri v d t).2.1) (xy (lineTri v d t).2.2))
    (fun g => hd_congr (baryBackward_deriv (p := p) h.area 0 (xy d.1) (xy d.2.1) (xy d.2.2) g)
      (fun t => by rw [line2_const]; rfl) rfl)
  cases persp with
  | false =>
    refine ⟨b0', hb0, fun g => ?_⟩
    rw [e0]
    simp [V2.dot]
  | true =>
    have hp := fun g => persp_curve hb0 (z_line v.1 d.1) (z_line v.2.1 d.2.1) (z_line v.2.2 d.2.2)
      (by simpa [lineTri, line3, xy] using h.denom rfl) g
    obtain ⟨b', hb, e⟩ := hd3_of hp
    refine ⟨b', hb, fun g => ?_⟩
    rw [e, e0]
    simp only [if_true, lineTri_zero]
    simp only [line3, V3.add_z, V3.smul_z, zero_mul, add_zero]
    simp only [V2.dot, V2.zero_x, V2.zero_y, mul_zero, zero_add]
    ring

theorem inside_const {b : ℝ → V3 ℝ} {b' : V3 ℝ} (hb : HD3 b b')
    (h : (0 < (b 0).x ∧ 0 < (b 0).y ∧ 0 < (b 0).z) ∨ (b 0).x < 0 ∨ (b 0).y < 0 ∨ (b 0).z < 0) :
    ∀ᶠ t in nhds (0 : ℝ), inside (b t) = inside (b 0) := by
  have neg : ∀ {f : ℝ → ℝ} {c : ℝ}, HasDerivAt f c 0 → f 0 < 0 → ∀ᶠ t in nhds (0 : ℝ), f t < 0 :=
    fun hf h => hf.continuousAt.eventually (gt_mem_nhds h)
  have pos : ∀ {f : ℝ → ℝ} {c : ℝ}, HasDerivAt f c 0 → 0 < f 0 → ∀ᶠ t in nhds (0 : ℝ), 0 < f t :=
    fun hf h => hf.continuousAt.eventually (lt_mem_nhds h)
  unfold inside
  rcases h with ⟨h0, h1, h2⟩ | h | h | h
  · filter_upwards [pos hb.1 h0, pos hb.2.1 h1, pos hb.2.2 h2] with t t0 t1 t2
    simp [h0, h1, h2, t0, t1, t2]
  · filter_upwards [neg hb.1 h] with t t0
    simp [h.not_gt, t0.not_gt]
  · filter_upwards [neg hb.2.1 h] with t t0
    simp [h.not_gt, t0.not_gt]
  · filter_upwards [neg hb.2.2 h] with t t0
    simp [h.not_gt, t0.not_gt]

/-- **One face.** At regular pixels the additions of the CPU backward pass are the derivative of the pairing of the incoming gradients
with depth, barycentric coordinates and signed distance, in every direction of the nine coordinates. -/
theorem cpuFace_deriv {cfg : RCfg ℝ} {v : Tri ℝ} {p : V2 ℝ} (h : Regular cfg.persp cfg.clip v p) (c : MCell ℝ) (d : Tri ℝ) :
    HasDerivAt (fun t => faceLoss cfg (lineTri v d t) p c) (pairTri (cpuFace cfg.persp cfg.clip v p c) d) 0 := by
  obtain ⟨b', hb, eb⟩ := rawBary_curve h d
  have hc : ∃ c', HD3 (fun t => if cfg.clip then clip (rawBary cfg.persp (lineTri v d t) p) else rawBary cfg.persp (lineTri v d t) p) c' ∧
      ∀ g, V3.dot g c' = V3.dot (if cfg.clip then clipBackward (rawBary cfg.persp v p) g else g) b' := by
    cases hcl : cfg.clip with
    | false => exact ⟨b', hb, fun g => rfl⟩
    | true =>
      obtain ⟨h1, h2, h3, h4⟩ := h.clip hcl
      have := fun g => clip_curve hb (by simpa only [lineTri_zero] using h1) (by simpa only [lineTri_zero] using h2)
        (by simpa only [lineTri_zero] using h3) (by simpa only [lineTri_zero] using h4) g
      simp only [lineTri_zero] at this
      simpa using hd3_of this
  obtain ⟨c', hC, ec⟩ := hc
  have hin := inside_const hb (by simpa only [lineTri_zero] using h.side)
  simp only [lineTri_zero] at hin
  have hdist := pointTriBackward_deriv h.long01 h.long02 h.long12 h.closest 0 (xy d.1) (xy d.2.1) (xy d.2.2)
    ((if inside (rawBary cfg.persp v p) then -1 else 1) * c.gd)
  simp only [line2_const, ← xy_line] at hdist
  have hz := ((hC.1.mul (z_line v.1 d.1)).add (hC.2.1.mul (z_line v.2.1 d.2.1))).add (hC.2.2.mul (z_line v.2.2 d.2.2))
  have hall := ((hz.const_mul c.gz).add (hC.dot c.gb)).add hdist
  refine HasDerivAt.congr_of_eventuallyEq (hd_congr hall (fun t => rfl) ?_) ?_
  · simp only [lineTri_zero]
    have hg := ec (c.gb + c.gz • (⟨v.1.z, v.2.1.z, v.2.2.z⟩ : V3 ℝ))
    rw [eb] at hg
    simp only at hg
    have hl : V3.dot (c.gb + c.gz • (⟨v.1.z, v.2.1.z, v.2.2.z⟩ : V3 ℝ)) c' =
        V3.dot c.gb c' + c.gz * (c'.x * v.1.z + c'.y * v.2.1.z + c'.z * v.2.2.z) := by
      simp [V3.dot]; ring
    rw [hl] at hg
    have hraw : rawBary cfg.persp v p = (if !cfg.persp then bary p (xy v.1) (xy v.2.1) (xy v.2.2)
        else perspCorrect (bary p (xy v.1) (xy v.2.1) (xy v.2.2)) v.1.z v.2.1.z v.2.2.z) := by
      unfold rawBary; cases cfg.persp <;> rfl
    have hcl : (if !cfg.clip then rawBary cfg.persp v p else clip (rawBary cfg.persp v p)) =
        (if cfg.clip then clip (rawBary cfg.persp v p) else rawBary cfg.persp v p) := by cases cfg.clip <;> rfl
    unfold cpuFace
    simp only
    rw [← hraw, hcl]
    have e2 : ∀ z d : V3 ℝ, (line3 z d 0).z = z.z := by intro z d; simp [line3]
    simp only [e2]
    generalize pointTriBackward p (xy v.1) (xy v.2.1) (xy v.2.2) ((if inside (rawBary cfg.persp v p) then -1 else 1) * c.gd) = dd at *
    generalize (if cfg.clip then clipBackward (rawBary cfg.persp v p) (c.gb + c.gz • (⟨v.1.z, v.2.1.z, v.2.2.z⟩ : V3 ℝ))
      else c.gb + c.gz • (⟨v.1.z, v.2.1.z, v.2.2.z⟩ : V3 ℝ)) = g at *
    generalize (if cfg.clip then clip (rawBary cfg.persp v p) else rawBary cfg.persp v p) = bc at *
    generalize perspCorrectBackward (bary p (xy v.1) (xy v.2.1) (xy v.2.2)) v.1.z v.2.1.z v.2.2.z g = pg at *
    generalize baryBackward p (xy v.1) (xy v.2.1) (xy v.2.2) (if cfg.persp then pg.1 else g) = db at *
    cases hper : cfg.persp
    · simp [hper, pairTri, pair4, coord, V2.dot, xy] at hg ⊢
      linear_combination -hg
    · simp [hper, pairTri, pair4, coord, V2.dot, xy] at hg ⊢
      linear_combination -hg
  · filter_upwards [hin] with t ht
    have hr : ∀ u : Tri ℝ, faceBary cfg ⟨0, u.1, u.2.1, u.2.2, -1⟩ p.x p.y = rawBary cfg.persp u p := fun u => rfl
    simp only [faceLoss, faceDepth, faceBaryClip, hr, ht, faceDist]
    simp only [Pi.add_apply, Pi.mul_apply]
    cases inside (rawBary cfg.persp v p)
    · simp only [Bool.false_eq_true, if_false, lineTri]; ring
    · simp only [if_true, lineTri]; ring

/-! ### Whole images -/

theorem cpuFace_keys {F : Type} [Field F] [LinearOrder F] [IsStrictOrderedRing F] {persp clp : Bool} {v : Tri F} {p : V2 F} {c : MCell F}
    {a} (h : a ∈ cpuFace persp clp v p c) : a.1.1 < 3 ∧ a.1.2 < 3 := by
  unfold cpuFace at h
  simp only [List.mem_append] at h
  rcases h with h | h
  · split at h
    · simp only [List.mem_cons, List.not_mem_nil, or_false] at h
      rcases h with rfl | rfl | rfl <;> simp
    · simp at h
  · simp only [List.mem_cons, List.not_mem_nil, or_false] at h
    rcases h with rfl | rfl | rfl | rfl | rfl | rfl | rfl | rfl | rfl <;> simp

/-- The directions of the vertices of face `f`. -/
def dirs (d : Nat → V3 ℝ) (f : Nat) : Tri ℝ := (d (f * 3 + 0), d (f * 3 + 1), d (f * 3 + 2))

/-- All faces moved along a direction; vertex `i` of face `f` has number `3 f + i`. -/
def movedFaces (faces : Nat → Tri ℝ) (d : Nat → V3 ℝ) (t : ℝ) (f : Nat) : Tri ℝ := lineTri (faces f) (dirs d f) t

theorem pair_flatMap {α : Type} (l : List α) (f : α → List ((Nat × Nat) × ℝ)) (d : Nat → V3 ℝ) :
    pair (l.flatMap f) d = (l.map fun a => pair (f a) d).sum := by
  rw [List.flatMap_def, pair_flatten, List.map_map]
  rfl

theorem cpuCell_pair {persp clp : Bool} {faces : Nat → Tri ℝ} {p : V2 ℝ} {c : MCell ℝ} (hc : 0 ≤ c.face) (d : Nat → V3 ℝ) :
    pair (cpuCell persp clp faces p c) d = pairTri (cpuFace persp clp (faces c.face.toNat) p c) (dirs d c.face.toNat) := by
  unfold cpuCell pair pairTri
  rw [if_neg hc.not_gt, List.map_map]
  congr 1
  apply List.map_congr_left
  intro a ha
  have := (cpuFace_keys ha).1
  simp only [Function.comp_apply, dirs]
  congr 2
  interval_cases h : a.1.1 <;> simp

theorem cpuCell_bound {F : Type} [Field F] [LinearOrder F] [IsStrictOrderedRing F] {persp clp : Bool} {faces : Nat → Tri F} {p : V2 F}
    {c : MCell F} {n : Nat} (hc : c.face < n) {a} (h : a ∈ cpuCell persp clp faces p c) : a.1.1 < n * 3 ∧ a.1.2 < 3 := by
  unfold cpuCell at h
  split at h
  · simp at h
  · obtain ⟨b, hb, rfl⟩ := List.mem_map.mp h
    have := cpuFace_keys hb
    simp only
    omega

theorem flat_bound {N H W K n y x k : Nat} (hn : n < N) (hy : y < H) (hx : x < W) (hk : k < K) :
    ((n * H + y) * W + x) * K + k < N * H * W * K := by
  have h1 : n * H + y < N * H := by nlinarith
  have h2 : (n * H + y) * W + x < N * H * W := by nlinarith
  nlinarith

/-- **Mesh rasterizer gradient, CPU.** For fixed `pix_to_face` with valid indices, if every fragment is regular, `grad_face_verts` is the
gradient of the pairing of the incoming gradients with the depths, barycentric coordinates and signed distances. -/
theorem meshBackward_deriv {cfg : RCfg ℝ} {faces : Nat → Tri ℝ} {N H W K nf : Nat} {m : MData ℝ} (hF : ∀ i < N * H * W * K, m.pix i < nf)
    (hreg : ∀ n < N, ∀ y < H, ∀ x < W, ∀ k < K, 0 ≤ m.pix (((n * H + y) * W + x) * K + k) →
      Regular cfg.persp cfg.clip (faces (m.pix (((n * H + y) * W + x) * K + k)).toNat) ⟨centre x W H, centre y H W⟩)
    (d : Nat → V3 ℝ) :
    HasDerivAt (fun t => meshLoss cfg (movedFaces faces d t) N H W K m)
      (∑ vc ∈ Finset.range (nf * 3) ×ˢ Finset.range 3, cpuBackward cfg.persp cfg.clip faces N H W K m vc * coord (d vc.1) vc.2) 0 := by
  unfold cpuBackward
  have hS : ∀ a ∈ cpuAdds cfg.persp cfg.clip faces N H W K m, a.1 ∈ Finset.range (nf * 3) ×ˢ Finset.range 3 := by
    intro a ha
    unfold cpuAdds at ha
    simp only [List.mem_flatMap, List.mem_range] at ha
    obtain ⟨n, hn, y, hy, x, hx, k, hk, ha⟩ := ha
    have := cpuCell_bound (n := nf) (hF _ (flat_bound hn hy hx hk)) ha
    simp [this]
  rw [sum_scatterAdd _ _ hS (fun vc => coord (d vc.1) vc.2)]
  · change HasDerivAt _ (pair (cpuAdds cfg.persp cfg.clip faces N H W K m) d) 0
    unfold cpuAdds meshLoss
    rw [pair_flatMap]
    refine hd_sum _ fun n hn => ?_
    rw [pair_flatMap]
    refine hd_sum _ fun y hy => ?_
    rw [pair_flatMap]
    refine hd_sum _ fun x hx => ?_
    rw [pair_flatMap]
    refine hd_sum _ fun k hk => ?_
    rw [List.mem_range] at hn hy hx hk
    rw [pixel_centre hx, pixel_centre hy]
    have hr := hreg n hn y hy x hx k hk
    change 0 ≤ (m.cell (((n * H + y) * W + x) * K + k)).face → Regular cfg.persp cfg.clip
      (faces (m.cell (((n * H + y) * W + x) * K + k)).face.toNat) ⟨centre x W H, centre y H W⟩ at hr
    generalize m.cell (((n * H + y) * W + x) * K + k) = c at *
    simp only
    rcases lt_or_ge c.face 0 with h | h
    · rw [cpuCell, if_pos h]
      simp only [if_pos h]
      exact hasDerivAt_const _ _
    · rw [cpuCell_pair h]
      simp only [if_neg h.not_gt]
      exact cpuFace_deriv (hr h) c _

end deriv

/-! ## The GPU kernel -/

section cuda
variable {F : Type} [Field F] [LinearOrder F] [IsStrictOrderedRing F]

theorem scatterAdd_flatMap {ι R α : Type*} [DecidableEq ι] [AddCommMonoid R] (l : List α) (f : α → List (ι × R)) (i : ι) :
    scatterAdd (l.flatMap f) i = (l.map fun a => scatterAdd (f a) i).sum := by
  induction l with
  | nil => rfl
  | cons a l ih => rw [List.flatMap_cons, scatterAdd_append, ih, List.map_cons, List.sum_cons]

/-- The additions for one face agree, entry by entry. -/
def SameAdds (cs : List (Nat × F)) (cs' : List ((Nat × Nat) × F)) : Prop :=
  ∀ i < 3, ∀ k < 3, scatterAdd cs (3 * i + k) = scatterAdd cs' (i, k)

theorem nine_same (persp : Bool) (a0 a1 a2 a3 a4 a5 a6 a7 a8 d0 d1 d2 : F) :
    SameAdds [(0, a0), (1, a1), (2, a2 + (if persp then (⟨d0, d1, d2⟩ : V3 F) else ⟨0, 0, 0⟩).x),
      (3, a3), (4, a4), (5, a5 + (if persp then (⟨d0, d1, d2⟩ : V3 F) else ⟨0, 0, 0⟩).y),
      (6, a6), (7, a7), (8, a8 + (if persp then (⟨d0, d1, d2⟩ : V3 F) else ⟨0, 0, 0⟩).z)]
      ((if persp then [((0, 2), d0), ((1, 2), d1), ((2, 2), d2)] else []) ++
      [((0, 0), a0), ((0, 1), a1), ((0, 2), a2), ((1, 0), a3), ((1, 1), a4), ((1, 2), a5), ((2, 0), a6), ((2, 1), a7), ((2, 2), a8)]) := by
  intro i hi k hk
  simp only [scatterAdd_apply]
  cases persp <;> interval_cases i <;> interval_cases k <;> simp [add_comm]

theorem face_same {persp clp : Bool} (h : ¬ (persp = true ∧ clp = true)) (v : Tri F) (p : V2 F) (c : MCell F) :
    SameAdds (cudaFace persp clp v p c) (cpuFace persp clp v p c) := by
  have key : ∀ (b0 b g : V3 F), (persp = true → clp = false) → (persp = false → b = b0) →
      (if clp then clipBackward b0 g else g) = (if clp then clipBackward b g else g) := by
    intro b0 b g h1 h2
    cases persp <;> cases clp <;> simp_all
  have hb : persp = true → clp = false := by cases persp <;> cases clp <;> simp_all
  unfold cudaFace cpuFace
  simp only
  rw [key (bary p (xy v.1) (xy v.2.1) (xy v.2.2)) (if (!persp) = true then bary p (xy v.1) (xy v.2.1) (xy v.2.2)
    else perspCorrect (bary p (xy v.1) (xy v.2.1) (xy v.2.2)) v.1.z v.2.1.z v.2.2.z) _ hb (by rintro rfl; rfl)]
  exact nine_same (F := F) persp _ _ _ _ _ _ _ _ _ _ _ _

theorem cell_same {persp clp : Bool} {faces : Nat → Tri F} {p : V2 F} {c : MCell F}
    (h : 0 ≤ c.face → SameAdds (cudaFace persp clp (faces c.face.toNat) p c) (cpuFace persp clp (faces c.face.toNat) p c))
    {a k : Nat} (hk : k < 3) : scatterAdd (cudaCell persp clp faces p c) (a * 3 + k) = scatterAdd (cpuCell persp clp faces p c) (a, k) := by
  unfold cudaCell cpuCell
  rcases lt_or_ge c.face 0 with h0 | h0
  · rw [if_pos h0, if_pos h0]; rfl
  · rw [if_neg h0.not_gt, if_neg h0.not_gt]
    have hs := h h0
    generalize c.face.toNat = f at *
    have hcu : ∀ x ∈ cudaFace persp clp (faces f) p c, x.1 < 9 := by
      intro x hx
      unfold cudaFace at hx
      simp only [List.mem_cons, List.not_mem_nil, or_false] at hx
      rcases hx with rfl | rfl | rfl | rfl | rfl | rfl | rfl | rfl | rfl <;> simp
    simp only [scatterAdd_apply, List.filter_map, List.map_map]
    by_cases hf : a / 3 = f
    · have := hs (a % 3) (Nat.mod_lt _ (by norm_num)) k hk
      rw [scatterAdd_apply, scatterAdd_apply] at this
      have e1 : ((cudaFace persp clp (faces f) p c).filter ((fun c => decide (c.1 = a * 3 + k)) ∘ fun a => (f * 9 + a.1, a.2))) =
          (cudaFace persp clp (faces f) p c).filter (fun c => decide (c.1 = 3 * (a % 3) + k)) := by
        apply List.filter_congr
        intro x hx
        have := hcu x hx
        simp only [Function.comp_apply, decide_eq_decide]
        omega
      have e2 : ((cpuFace persp clp (faces f) p c).filter ((fun c => decide (c.1 = (a, k))) ∘ fun a => ((f * 3 + a.1.1, a.1.2), a.2))) =
          (cpuFace persp clp (faces f) p c).filter (fun c => decide (c.1 = (a % 3, k))) := by
        apply List.filter_congr
        intro x hx
        have := cpuFace_keys hx
        simp only [Function.comp_apply, decide_eq_decide, Prod.ext_iff]
        omega
      rw [e1, e2]
      exact this
    · have e1 : ((cudaFace persp clp (faces f) p c).filter ((fun c => decide (c.1 = a * 3 + k)) ∘ fun a => (f * 9 + a.1, a.2))) = [] := by
        rw [List.filter_eq_nil_iff]
        intro x hx
        have := hcu x hx
        simp only [Function.comp_apply, decide_eq_true_eq]
        omega
      have e2 : ((cpuFace persp clp (faces f) p c).filter ((fun c => decide (c.1 = (a, k))) ∘ fun a => ((f * 3 + a.1.1, a.1.2), a.2))) = [] := by
        rw [List.filter_eq_nil_iff]
        intro x hx
        have := cpuFace_keys hx
        simp only [Function.comp_apply, decide_eq_true_eq, Prod.ext_iff]
        omega
      rw [e1, e2]; rfl

/-- The kernel, for any launch and any order of the atomic additions, computes the CPU gradient if it does so for every fragment. -/
theorem cuda_of_face {persp clp : Bool} {faces : Nat → Tri F} {grid block N H W K : Nat} (hg : 0 < grid) (hb : 0 < block) {m : MData F}
    (h : ∀ n < N, ∀ y < H, ∀ x < W, ∀ k < K, 0 ≤ m.pix (((n * H + y) * W + x) * K + k) →
      SameAdds (cudaFace persp clp (faces (m.pix (((n * H + y) * W + x) * K + k)).toNat)
          ⟨pixToNdc (W - 1 - x) W H, pixToNdc (H - 1 - y) H W⟩ (m.cell (((n * H + y) * W + x) * K + k)))
        (cpuFace persp clp (faces (m.pix (((n * H + y) * W + x) * K + k)).toNat)
          ⟨pixToNdc (W - 1 - x) W H, pixToNdc (H - 1 - y) H W⟩ (m.cell (((n * H + y) * W + x) * K + k))))
    {cs} (hp : cs.Perm (cudaAdds persp clp faces grid block N H W K m)) {a k : Nat} (hk : k < 3) :
    scatterAdd cs (a * 3 + k) = cpuBackward persp clp faces N H W K m (a, k) := by
  rw [scatterAdd_perm hp, cudaAdds, scatterAdd_perm ((gridStride_perm hg hb _).flatMap_right _), Nat.mul_assoc, flatMap_range_mul]
  unfold cpuBackward cpuAdds
  rw [scatterAdd_flatMap, scatterAdd_flatMap]
  congr 1
  apply List.map_congr_left
  intro n hn
  rw [flatMap_range_mul, scatterAdd_flatMap, scatterAdd_flatMap]
  congr 1
  apply List.map_congr_left
  intro y hy
  rw [scatterAdd_flatMap, scatterAdd_flatMap]
  congr 1
  apply List.map_congr_left
  intro x hx
  rw [List.mem_range] at hn hy hx
  unfold cudaItem
  have hlt : y * W + x < H * W := by nlinarith
  simp only [div_decode hlt, mod_decode hlt, div_decode hx, mod_decode hx]
  rw [scatterAdd_flatMap, scatterAdd_flatMap]
  congr 1
  apply List.map_congr_left
  intro j hj
  rw [List.mem_range] at hj
  rw [show n * H * W * K + (y * W + x) * K + j = ((n * H + y) * W + x) * K + j by ring]
  exact cell_same (h n hn y hy x hx j hj) hk

/-- **Mesh rasterizer gradient, GPU.** Unless perspective correction and clipping of the barycentric coordinates are both on, the kernel
computes the same `grad_face_verts` as the CPU, for any launch and any order of the atomic additions. -/
theorem cuda_eq_cpu {persp clp : Bool} (h : ¬ (persp = true ∧ clp = true)) {faces : Nat → Tri F} {grid block N H W K : Nat} (hg : 0 < grid)
    (hb : 0 < block) {m : MData F} {cs} (hp : cs.Perm (cudaAdds persp clp faces grid block N H W K m)) {a k : Nat} (hk : k < 3) :
    scatterAdd cs (a * 3 + k) = cpuBackward persp clp faces N H W K m (a, k) :=
  cuda_of_face hg hb (fun _ _ _ _ _ _ _ _ _ => face_same h _ _ _) hp hk

/-- The gradient of the clipping where all coordinates are positive and their sum is above the bound. -/
theorem clipBackward_inside {b : V3 F} (hx : 0 < b.x) (hy : 0 < b.y) (hz : 0 < b.z) (hs : 1 / 10 ^ 5 ≤ b.x + b.y + b.z) (g : V3 F) :
    clipBackward b g = (1 / (b.x + b.y + b.z)) • g
      - (V3.dot g b / (b.x + b.y + b.z) ^ 2) • (⟨1, 1, 1⟩ : V3 F) := by
  simp only [clipBackward, max_eq_left hx.le, max_eq_left hy.le, max_eq_left hz.le, if_neg hs.not_gt, if_neg hx.not_gt, if_neg hy.not_gt,
    if_neg hz.not_gt]
  ext <;> simp [V3.dot] <;> ring

/-- The backward pass of the perspective correction, as a linear map that does not see constants. -/
theorem perspBackward_affine {b : V3 F} {z0 z1 z2 : F} (hd : kEps < b.x * z1 * z2 + b.y * z0 * z2 + b.z * z0 * z1) (g : V3 F) (s k : F) :
    perspCorrectBackward b z0 z1 z2 (s • g - k • (⟨1, 1, 1⟩ : V3 F)) =
      (s • (perspCorrectBackward b z0 z1 z2 g).1, s * (perspCorrectBackward b z0 z1 z2 g).2.1,
        s * (perspCorrectBackward b z0 z1 z2 g).2.2.1, s * (perspCorrectBackward b z0 z1 z2 g).2.2.2) := by
  have hne : b.x * z1 * z2 + b.y * z0 * z2 + b.z * z0 * z1 ≠ 0 := (kEps_pos.trans hd).ne'
  simp only [perspCorrectBackward, max_eq_left hd.le, V3.sub_x, V3.sub_y, V3.sub_z, V3.smul_x, V3.smul_y, V3.smul_z]
  generalize hD : b.x * z1 * z2 + b.y * z0 * z2 + b.z * z0 * z1 = D at *
  have e : ∀ u : F, (-(b.x * z1 * z2) * (s * g.x - k * 1) - b.y * z0 * z2 * (s * g.y - k * 1) - b.z * z0 * z1 * (s * g.z - k * 1)) / (D * D)
      + (s * u - k * 1) / D = s * ((-(b.x * z1 * z2) * g.x - b.y * z0 * z2 * g.y - b.z * z0 * z1 * g.z) / (D * D) + u / D) := by
    intro u
    field_simp
    linear_combination k * hD
  simp only [e]
  refine Prod.ext ?_ (Prod.ext ?_ (Prod.ext ?_ ?_))
  · ext <;> simp only [V3.smul_x, V3.smul_y, V3.smul_z] <;> ring
  · simp only; ring
  · simp only; ring
  · simp only; ring

/-- The sum of the barycentric coordinates: `A / (A + ε)` for twice the signed area `A`. -/
theorem bary_sum (p v0 v1 v2 : V2 F) (h : edge v2 v0 v1 + kEps ≠ 0) :
    (bary p v0 v1 v2).x + (bary p v0 v1 v2).y + (bary p v0 v1 v2).z = edge v2 v0 v1 / (edge v2 v0 v1 + kEps) := by
  simp only [bary]
  generalize edge v2 v0 v1 + kEps = a at *
  field_simp
  simp only [edge]
  ring

/-- Incoming gradient with the barycentric part (which includes the depth) scaled by `r`. -/
def MCell.scale (c : MCell F) (v : Tri F) (r : F) : MCell F :=
  let z : V3 F := ⟨v.1.z, v.2.1.z, v.2.2.z⟩
  { c with gb := r • (c.gb + c.gz • z) - c.gz • z }

/-- With perspective correction and clipping, for pixels inside the face, the kernel computes the CPU gradient for incoming gradients scaled by
`(A + ε) / A`: nearly the same. -/
theorem cuda_inside {v : Tri F} {p : V2 F} (h0 : 0 < v.1.z) (h1 : 0 < v.2.1.z) (h2 : 0 < v.2.2.z)
    (ha : edge (xy v.2.2) (xy v.1) (xy v.2.1) + kEps ≠ 0)
    (hx : 0 < (bary p (xy v.1) (xy v.2.1) (xy v.2.2)).x) (hy : 0 < (bary p (xy v.1) (xy v.2.1) (xy v.2.2)).y)
    (hz : 0 < (bary p (xy v.1) (xy v.2.1) (xy v.2.2)).z)
    (hs : 1 / 10 ^ 5 ≤ edge (xy v.2.2) (xy v.1) (xy v.2.1) / (edge (xy v.2.2) (xy v.1) (xy v.2.1) + kEps))
    (hd : kEps < (bary p (xy v.1) (xy v.2.1) (xy v.2.2)).x * v.2.1.z * v.2.2.z
      + (bary p (xy v.1) (xy v.2.1) (xy v.2.2)).y * v.1.z * v.2.2.z + (bary p (xy v.1) (xy v.2.1) (xy v.2.2)).z * v.1.z * v.2.1.z)
    (c : MCell F) :
    SameAdds (cudaFace true true v p c) (cpuFace true true v p
      (c.scale v ((edge (xy v.2.2) (xy v.1) (xy v.2.1) + kEps) / edge (xy v.2.2) (xy v.1) (xy v.2.1)))) := by
  have hsum := bary_sum p (xy v.1) (xy v.2.1) (xy v.2.2) ha
  unfold cudaFace cpuFace MCell.scale
  simp only [Bool.not_true, Bool.false_eq_true, if_false, if_true, sub_add_cancel]
  generalize edge (xy v.2.2) (xy v.1) (xy v.2.1) = A at *
  generalize bary p (xy v.1) (xy v.2.1) (xy v.2.2) = b at *
  generalize c.gb + c.gz • (⟨v.1.z, v.2.1.z, v.2.2.z⟩ : V3 F) = gs at *
  have hD : 0 < b.x * v.2.1.z * v.2.2.z + b.y * v.1.z * v.2.2.z + b.z * v.1.z * v.2.1.z := kEps_pos.trans hd
  have hbx : 0 < (perspCorrect b v.1.z v.2.1.z v.2.2.z).x := by
    simp only [perspCorrect, max_eq_left hd.le]; exact div_pos (mul_pos (mul_pos hx h1) h2) hD
  have hby : 0 < (perspCorrect b v.1.z v.2.1.z v.2.2.z).y := by
    simp only [perspCorrect, max_eq_left hd.le]; exact div_pos (mul_pos (mul_pos hy h0) h2) hD
  have hbz : 0 < (perspCorrect b v.1.z v.2.1.z v.2.2.z).z := by
    simp only [perspCorrect, max_eq_left hd.le]; exact div_pos (mul_pos (mul_pos hz h0) h1) hD
  have hone : (perspCorrect b v.1.z v.2.1.z v.2.2.z).x + (perspCorrect b v.1.z v.2.1.z v.2.2.z).y
      + (perspCorrect b v.1.z v.2.1.z v.2.2.z).z = 1 := by
    simp only [perspCorrect, max_eq_left hd.le]
    rw [← add_div, ← add_div, div_self hD.ne']
  generalize perspCorrect b v.1.z v.2.1.z v.2.2.z = bp at *
  have hA : 1 / (A / (A + kEps)) = (A + kEps) / A := one_div_div A (A + kEps)
  have e1 : perspCorrectBackward b v.1.z v.2.1.z v.2.2.z (clipBackward b gs) =
      perspCorrectBackward b v.1.z v.2.1.z v.2.2.z (clipBackward bp (((A + kEps) / A) • gs)) := by
    rw [clipBackward_inside hx hy hz (by rw [hsum]; exact hs), clipBackward_inside hbx hby hbz (by rw [hone]; norm_num),
      perspBackward_affine hd, perspBackward_affine hd, hone, hsum, hA]
    have e2 : ((A + kEps) / A) • gs = ((A + kEps) / A) • gs - (0 : F) • (⟨1, 1, 1⟩ : V3 F) := by ext <;> simp
    rw [e2, perspBackward_affine hd]
    simp
  rw [e1]
  exact nine_same (F := F) true _ _ _ _ _ _ _ _ _ _ _ _

end cuda

/-! ### Pixels outside the face -/

/-- A face and a pixel beside it, as they occur with a positive blur radius. -/
def wTri {F : Type} [Field F] : Tri F := (⟨0, 0, 1⟩, ⟨0, 2, 1⟩, ⟨2, 0, 2⟩)
def wPix {F : Type} [Field F] : V2 F := ⟨2, 1⟩
def wCell {F : Type} [Field F] : MCell F := ⟨0, 0, ⟨0, 1, 0⟩, 0⟩

theorem witness_regular : Regular true true (wTri (F := ℝ)) wPix := by
  constructor <;> norm_num [wTri, wPix, rawBary, bary, edge, xy, kEps, perspCorrect, max_def, pointLine, clamp01, min_def, V2.dot]

/-- The options of soft rasterization with a perspective camera. -/
def wCfg {F : Type} [Field F] : RCfg F := ⟨1, 1, true, true, false⟩

/-- The forward pass reports this face for this pixel. -/
theorem witness_hit : (faceHit (wCfg (F := ℝ)) 2 1 ⟨0, wTri.1, wTri.2.1, wTri.2.2, -1⟩).isSome = true := by
  norm_num [faceHit, wCfg, wTri, outsideBox, faceDepth, faceBaryClip, faceBary, faceDist, inside, bary, edge, xy, kEps, perspCorrect, max_def,
    pointTri, pointLine, clamp01, min_def, V2.dot, clip]

/-- The additions of the kernel, paired with a direction. -/
def pairNine (l : List (Nat × ℝ)) (d : Tri ℝ) : ℝ :=
  (l.map fun a => a.2 * coord (if a.1 / 3 = 0 then d.1 else if a.1 / 3 = 1 then d.2.1 else d.2.2) (a.1 % 3)).sum

/-- **The kernel is wrong outside the face.** With perspective correction and clipping both on there is a fragment of the forward pass, at a
point where its outputs are differentiable, for which the additions of the kernel are not the derivative (`BarycentricClipBackward` is
called with the coordinates before the perspective correction, rasterize_meshes.cu:528). -/
theorem cuda_wrong : ∃ (cfg : RCfg ℝ) (v : Tri ℝ) (p : V2 ℝ) (c : MCell ℝ) (d : Tri ℝ) (D : ℝ),
    cfg.persp = true ∧ cfg.clip = true ∧ (faceHit cfg p.x p.y ⟨0, v.1, v.2.1, v.2.2, -1⟩).isSome = true ∧
    HasDerivAt (fun t => faceLoss cfg (lineTri v d t) p c) D 0 ∧
    D = pairTri (cpuFace cfg.persp cfg.clip v p c) d ∧ pairNine (cudaFace cfg.persp cfg.clip v p c) d ≠ D := by
  refine ⟨wCfg, wTri, wPix, wCell, (0, ⟨0, 0, 1⟩, 0), _, rfl, rfl, witness_hit, cpuFace_deriv witness_regular _ _, rfl, ?_⟩
  have h1 : pairTri (cpuFace true true wTri wPix wCell) (0, ⟨0, 0, 1⟩, 0) = -1 / 4 := by
    norm_num [pairTri, cpuFace, wCfg, wTri, wPix, wCell, coord, bary, edge, xy, kEps, perspCorrect, perspCorrectBackward, clip, clipBackward, max_def]
  have h2 : pairNine (cudaFace true true wTri wPix wCell) (0, ⟨0, 0, 1⟩, 0) = -400000001 / 1800000000 := by
    norm_num [pairNine, cudaFace, wCfg, wTri, wPix, wCell, coord, bary, edge, xy, kEps, perspCorrect, perspCorrectBackward, clip, clipBackward, max_def]
  rw [show (wCfg (F := ℝ)).persp = true from rfl, show (wCfg (F := ℝ)).clip = true from rfl, h1, h2]
  norm_num

/-! ### Examples -/

/-- One pixel, two layers, the second empty: the additions of the CPU for the face of the witness moved to the pixel of a 1×1 image. -/
example : let m : MData ℚ := ⟨fun i => if i = 0 then 0 else -1, fun _ => 3, fun i => i, fun _ => 5⟩
    let faces : Nat → Tri ℚ := fun _ => (⟨-2, -1, 1⟩, ⟨-2, 1, 1⟩, ⟨0, -1, 2⟩)
    [(0, 0), (0, 1), (0, 2), (1, 0), (1, 1), (1, 2), (2, 0), (2, 1), (2, 2), (3, 0)].map (cpuBackward true true faces 1 1 1 2 m) =
      [1 / 4, -1 / 2, 0, -3 / 2, -3 / 4, 5 / 2, -17 / 4, -11 / 4, 1, 0] := by decide +kernel

/-- The kernel gives the same without clipping. -/
example : let m : MData ℚ := ⟨fun i => if i = 0 then 0 else -1, fun _ => 3, fun i => i, fun _ => 5⟩
    let faces : Nat → Tri ℚ := fun _ => (⟨-2, -1, 1⟩, ⟨-2, 1, 1⟩, ⟨0, -1, 2⟩)
    (List.range 9).map (scatterAdd (cudaAdds true false faces 2 3 1 1 1 2 m)) =
      [(0, 0), (0, 1), (0, 2), (1, 0), (1, 1), (1, 2), (2, 0), (2, 1), (2, 2)].map (cpuBackward true false faces 1 1 1 2 m) := by
  decide +kernel

end P3D.Raster
