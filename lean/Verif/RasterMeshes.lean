/-
Mesh rasterization: `csrc/rasterize_meshes/rasterize_meshes_cpu.cpp` (forward pass with threads) and the naive kernel
of `rasterize_meshes.cu`.

Floats are an ordered field; `sqrt(blur_radius)` is a parameter whose square is the blur radius.
-/
import Verif.RasterPoints
import Verif.DistanceProps
import Verif.Store

set_option linter.unusedSectionVars false

namespace P3D.Raster

open Geom

section defs
variable {F : Type} [Field F] [LinearOrder F] [IsStrictOrderedRing F]

/-- The options of the rasterizer. -/
structure RCfg (F : Type) where
  blur : F
  sqrtBlur : F
  persp : Bool
  clip : Bool
  cull : Bool

/-- A face with its packed index, its vertices and `clipped_faces_neighbor_idx`. -/
structure FItem (F : Type) where
  idx : Nat
  v0 : V3 F
  v1 : V3 F
  v2 : V3 F
  nbr : ℤ

/-- The tuple of the deque, `rasterize_meshes_cpu.cpp:179-181`. -/
structure Frag (F : Type) where
  z : F
  idx : Nat
  dist : F
  bary : V3 F
  deriving DecidableEq

/-- The comparison of tuples. -/
instance : LinearOrder (Frag F) :=
  LinearOrder.lift' (fun f => toLex (f.z, toLex (f.idx, toLex (f.dist, toLex (f.bary.x, toLex (f.bary.y, f.bary.z)))))) (by
    rintro ⟨a, b, c, d, e, f⟩ ⟨a', b', c', d', e', f'⟩ h
    simp only [EmbeddingLike.apply_eq_iff_eq, Prod.mk.injEq] at h
    obtain ⟨rfl, rfl, rfl, rfl, rfl, rfl⟩ := h
    rfl)

/-- One entry of the four output tensors. -/
structure FCell (F : Type) where
  face : ℤ
  z : F
  dist : F
  bary : V3 F
  deriving DecidableEq

/-- `torch::full(.., -1)`, lines 338-342. -/
def FCell.empty : FCell F := ⟨-1, -1, -1, ⟨-1, -1, -1⟩⟩

/-- Lines 296-301. -/
def Frag.cell (f : Frag F) : FCell F := ⟨f.idx, f.z, f.dist, f.bary⟩

def xy (v : V3 F) : V2 F := ⟨v.x, v.y⟩

/-- `CheckPointOutsideBoundingBox`, lines 62-79, with the boxes of `ComputeFaceBoundingBoxes`, lines 27-56. -/
def outsideBox (it : FItem F) (r xf yf : F) : Bool :=
  let xmin := min it.v0.x (min it.v1.x it.v2.x) - r
  let ymin := min it.v0.y (min it.v1.y it.v2.y) - r
  let xmax := max it.v0.x (max it.v1.x it.v2.x) + r
  let ymax := max it.v0.y (max it.v1.y it.v2.y) + r
  let zmin := min it.v0.z (min it.v1.z it.v2.z)
  decide (xf > xmax ∨ xf < xmin ∨ yf > ymax ∨ yf < ymin ∨ zmin < kEps)

/-- Lines 205-216: barycentric coordinates, unclipped. -/
def faceBary (cfg : RCfg F) (it : FItem F) (xf yf : F) : V3 F :=
  let b0 := bary ⟨xf, yf⟩ (xy it.v0) (xy it.v1) (xy it.v2)
  if cfg.persp then perspCorrect b0 it.v0.z it.v1.z it.v2.z else b0

/-- Lines 218-219. -/
def faceBaryClip (cfg : RCfg F) (it : FItem F) (xf yf : F) : V3 F :=
  if cfg.clip then clip (faceBary cfg it xf yf) else faceBary cfg it xf yf

/-- Lines 222-223. -/
def faceDepth (cfg : RCfg F) (it : FItem F) (xf yf : F) : F :=
  let b := faceBaryClip cfg it xf yf
  b.x * it.v0.z + b.y * it.v1.z + b.z * it.v2.z

/-- Line 230. -/
def faceDist (it : FItem F) (xf yf : F) : F := pointTri ⟨xf, yf⟩ (xy it.v0) (xy it.v1) (xy it.v2)

/-- Line 234. -/
def inside (b : V3 F) : Bool := decide (b.x > 0 ∧ b.y > 0 ∧ b.z > 0)

/-- Lines 184-243: the unsigned distance and the fragment, if the face covers the pixel. -/
def faceHit (cfg : RCfg F) (xf yf : F) (it : FItem F) : Option (F × Frag F) :=
  let area := edge (xy it.v0) (xy it.v1) (xy it.v2)
  if cfg.cull ∧ area < 0 then none
  else if area ≤ kEps ∧ area ≥ -1 * kEps then none
  else if outsideBox it cfg.sqrtBlur xf yf then none
  else
    let pz := faceDepth cfg it xf yf
    if pz < 0 then none
    else
      let dist := faceDist it xf yf
      let ins := inside (faceBary cfg it xf yf)
      let sd := if ins then -dist else dist
      if ¬ ins ∧ dist ≥ cfg.blur then none
      else some (dist, ⟨pz, it.idx, sd, faceBaryClip cfg it xf yf⟩)

/-- Lines 254-267: the position of the neighbour in the queue. -/
def findNbr (nbr : ℤ) (q : List (Frag F)) : Option Nat :=
  if nbr ≠ -1 then q.findIdx? fun e => decide ((e.idx : ℤ) = nbr) else none

/-- Lines 268-283: overwrite the neighbour if it is further away, or append. -/
def meshPre (nbr : ℤ) (q : List (Frag F)) (dx : F × Frag F) : List (Frag F) :=
  match findNbr nbr q with
  | some k => if dx.1 < |((q[k]?.map Frag.dist).getD 0)| then q.set k dx.2 else q
  | none => q ++ [dx.2]

/-- Lines 285-289: sort and trim. -/
def sortTrim (K : Nat) (q : List (Frag F)) : List (Frag F) :=
  if (q.insertionSort (· ≤ ·)).length > K then (q.insertionSort (· ≤ ·)).dropLast else q.insertionSort (· ≤ ·)

/-- Lines 254-289. -/
def meshPush (K : Nat) (nbr : ℤ) (q : List (Frag F)) (dx : F × Frag F) : List (Frag F) := sortTrim K (meshPre nbr q dx)

/-- Lines 178-303: one pixel. -/
def meshPixelCpu (cfg : RCfg F) (K : Nat) (items : List (FItem F)) (xf yf : F) : List (FCell F) :=
  drain Frag.cell (items.foldl (fun q it => stepHit (meshPush K it.nbr) q (faceHit cfg xf yf it)) [])
    (List.replicate K FCell.empty)

/-- The faces `first .. first + num - 1` of the packed tensors. -/
def meshItems (faces : List (V3 F × V3 F × V3 F)) (nbrs : List ℤ) (first num : Nat) : Option (List (FItem F)) :=
  (List.range' first num).mapM fun f => do
    let v ← faces[f]?
    let n ← nbrs[f]?
    some ⟨f, v.1, v.2.1, v.2.2, n⟩

/-- Lines 361-392: the row ranges of the threads. -/
def threadRows (H nThreads : Nat) : List (Nat × Nat) :=
  let chunk := 1 + (H - 1) / nThreads
  (List.range nThreads).map fun i => (i * chunk, min (i * chunk + chunk) H)

/-- `RasterizeMeshesNaiveCpu_worker`, lines 127-305: stores to pixel `(n, yi, xi)`, in program order. -/
def worker (cfg : RCfg F) (H W K : Nat) (meshes : List (List (FItem F))) (rows : Nat × Nat) :
    List ((Nat × Nat × Nat) × List (FCell F)) :=
  meshes.zipIdx.flatMap fun mn => (List.range' rows.1 (rows.2 - rows.1)).flatMap fun yi => (List.range W).map fun xi =>
    ((mn.2, yi, xi), meshPixelCpu cfg K mn.1 (pixToNdc (W - 1 - xi) W H) (pixToNdc (H - 1 - yi) H W))

/-- `CheckPixelInsideFace`, `rasterize_meshes.cu:97-178`: the tests. -/
def faceHitGpu (cfg : RCfg F) (xf yf : F) (it : FItem F) : Option (F × Frag F) :=
  let area := edge (xy it.v0) (xy it.v1) (xy it.v2)
  let zmax := max it.v0.z (max it.v1.z it.v2.z)
  if zmax < 0 ∨ (cfg.cull ∧ area < 0) ∨ outsideBox it cfg.sqrtBlur xf yf ∨ (area ≤ kEps ∧ area ≥ -1 * kEps) then none
  else
    let pz := faceDepth cfg it xf yf
    if pz < 0 then none
    else
      let dist := faceDist it xf yf
      let ins := inside (faceBary cfg it xf yf)
      let sd := if ins then -dist else dist
      if ¬ ins ∧ dist ≥ cfg.blur then none
      else some (dist, ⟨pz, it.idx, sd, faceBaryClip cfg it xf yf⟩)

/-- `rasterize_meshes.cu:186-238`: neighbour handling and insertion. -/
def gpuMeshPush (K : Nat) (nbr : ℤ) (s : GQ (Frag F) F) (dx : F × Frag F) : Option (GQ (Frag F) F) :=
  match findNbr nbr s.q with
  | some k =>
    some (if dx.1 < |((s.q[k]?.map Frag.dist).getD 0)| then
      (if dx.2.z > s.maxZ then ⟨s.q.set k dx.2, dx.2.z, k⟩ else ⟨s.q.set k dx.2, s.maxZ, s.maxIdx⟩)
    else s)
  | none => gpuPush Frag.z K s dx.2

/-- `operator<` of `Pixel`, lines 28-30. -/
def fragKey (f : Frag F) : F ×ₗ ℕ := toLex (f.z, f.idx)

/-- `rasterize_meshes.cu:262-333`: one pixel of the GPU kernel. -/
def meshPixelGpu (cfg : RCfg F) (K : Nat) (items : List (FItem F)) (xf yf : F) : Option (List (FCell F)) := do
  let s ← items.foldlM (fun s it => stepHitM (gpuMeshPush K it.nbr) s (faceHitGpu cfg xf yf it)) gq0
  let q := bubbleSort fragKey s.q
  some (q.map Frag.cell ++ List.replicate (K - q.length) FCell.empty)

end defs

/-! ## Which faces cover a pixel -/

section cover
variable {F : Type} [Field F] [LinearOrder F] [IsStrictOrderedRing F]

/-- The face covers the pixel centre and `f` is its fragment: all vertices are in front of the camera, the projected
face is not degenerate and, if culling, counter-clockwise; the pixel is inside the projected triangle or closer than the
blur radius; the interpolated depth is not negative. -/
structure FCovers (cfg : RCfg F) (xf yf : F) (it : FItem F) (f : Frag F) : Prop where
  front : kEps ≤ it.v0.z ∧ kEps ≤ it.v1.z ∧ kEps ≤ it.v2.z
  area : kEps < |edge (xy it.v2) (xy it.v0) (xy it.v1)|
  facing : cfg.cull = true → 0 ≤ edge (xy it.v2) (xy it.v0) (xy it.v1)
  near : InTri ⟨xf, yf⟩ (xy it.v0) (xy it.v1) (xy it.v2) ∨ faceDist it xf yf < cfg.blur
  depth : 0 ≤ faceDepth cfg it xf yf
  idx : f.idx = it.idx
  z : f.z = faceDepth cfg it xf yf
  dist : (InTri ⟨xf, yf⟩ (xy it.v0) (xy it.v1) (xy it.v2) → f.dist = -faceDist it xf yf)
    ∧ (¬ InTri ⟨xf, yf⟩ (xy it.v0) (xy it.v1) (xy it.v2) → f.dist = faceDist it xf yf)
  bary : f.bary = faceBaryClip cfg it xf yf

/-- The distance is attained at a point of a side. -/
theorem pointLine_attained (p v0 v1 : V2 F) : ∃ s, 0 ≤ s ∧ s ≤ 1 ∧ segDist p v0 v1 s = pointLine p v0 v1 := by
  by_cases h : kEps < V2.dot (v1 - v0) (v1 - v0)
  · obtain ⟨⟨s, h0, h1, e⟩, _⟩ := pointLine_min (p := p) h
    exact ⟨s, h0, h1, e⟩
  · refine ⟨1, zero_le_one, le_rfl, ?_⟩
    rw [pointLine_short (not_lt.mp h)]
    unfold segDist
    have : v0 + (1 : F) • (v1 - v0) = v1 := by ext <;> simp
    rw [this]

theorem within_box {r a b lo hi : F} (h1 : (a - b) ^ 2 ≤ r ^ 2) (hr : 0 ≤ r) (hlo : lo ≤ b) (hhi : b ≤ hi) :
    lo - r ≤ a ∧ a ≤ hi + r := by
  have := abs_le.mp (abs_le_of_sq_le_sq h1 hr)
  constructor <;> linarith [this.1, this.2]

/-- The bounding box test never rejects a covered pixel. -/
theorem box_redundant {cfg : RCfg F} (hr : 0 ≤ cfg.sqrtBlur) (hb : cfg.sqrtBlur ^ 2 = cfg.blur) {it : FItem F} {xf yf : F}
    (hz : kEps ≤ it.v0.z ∧ kEps ≤ it.v1.z ∧ kEps ≤ it.v2.z)
    (h : InTri ⟨xf, yf⟩ (xy it.v0) (xy it.v1) (xy it.v2) ∨ faceDist it xf yf < cfg.blur) :
    outsideBox it cfg.sqrtBlur xf yf = false := by
  have key : ∀ q : V2 F, (∃ a b c : F, 0 ≤ a ∧ 0 ≤ b ∧ 0 ≤ c ∧ a + b + c = 1
      ∧ q = a • xy it.v0 + b • xy it.v1 + c • xy it.v2) →
      V2.dot (⟨xf, yf⟩ - q) (⟨xf, yf⟩ - q) ≤ cfg.sqrtBlur ^ 2 → outsideBox it cfg.sqrtBlur xf yf = false := by
    rintro q ⟨a, b, c, ha, hb, hc, hs, rfl⟩ hd
    have hx : (xf - (a * it.v0.x + b * it.v1.x + c * it.v2.x)) ^ 2 ≤ cfg.sqrtBlur ^ 2 := by
      simp only [V2.dot, xy, V2.sub_x, V2.sub_y, V2.add_x, V2.add_y, V2.smul_x, V2.smul_y] at hd
      nlinarith [sq_nonneg (yf - (a * it.v0.y + b * it.v1.y + c * it.v2.y))]
    have hy : (yf - (a * it.v0.y + b * it.v1.y + c * it.v2.y)) ^ 2 ≤ cfg.sqrtBlur ^ 2 := by
      simp only [V2.dot, xy, V2.sub_x, V2.sub_y, V2.add_x, V2.add_y, V2.smul_x, V2.smul_y] at hd
      nlinarith [sq_nonneg (xf - (a * it.v0.x + b * it.v1.x + c * it.v2.x))]
    have lo : ∀ u v w : F, min u (min v w) ≤ a * u + b * v + c * w := by
      intro u v w
      have h1 := min_le_left u (min v w)
      have h2 := (min_le_right u (min v w)).trans (min_le_left v w)
      have h3 := (min_le_right u (min v w)).trans (min_le_right v w)
      generalize min u (min v w) = m at *
      calc m = a * m + b * m + c * m := by rw [← add_mul, ← add_mul, hs, one_mul]
        _ ≤ _ := by gcongr
    have hi : ∀ u v w : F, a * u + b * v + c * w ≤ max u (max v w) := by
      intro u v w
      have h1 := le_max_left u (max v w)
      have h2 := (le_max_left v w).trans (le_max_right u (max v w))
      have h3 := (le_max_right v w).trans (le_max_right u (max v w))
      generalize max u (max v w) = m at *
      calc a * u + b * v + c * w ≤ a * m + b * m + c * m := by gcongr
        _ = m := by rw [← add_mul, ← add_mul, hs, one_mul]
    obtain ⟨x1, x2⟩ := within_box hx hr (lo _ _ _) (hi _ _ _)
    obtain ⟨y1, y2⟩ := within_box hy hr (lo _ _ _) (hi _ _ _)
    simp only [outsideBox, decide_eq_false_iff_not, not_or, not_lt]
    exact ⟨x2, x1, y2, y1, le_min hz.1 (le_min hz.2.1 hz.2.2)⟩
  rcases h with ⟨a, b, c, ha, hb', hc, hs, e⟩ | h
  · refine key _ ⟨a, b, c, ha.le, hb'.le, hc.le, hs, rfl⟩ ?_
    rw [← e]
    have : V2.dot ((⟨xf, yf⟩ : V2 F) - ⟨xf, yf⟩) (⟨xf, yf⟩ - ⟨xf, yf⟩) = 0 := by simp [V2.dot]
    rw [this]; positivity
  · rw [← hb] at h
    unfold faceDist pointTri at h
    rcases min_lt_iff.mp h with h | h
    · rcases min_lt_iff.mp h with h | h
      · obtain ⟨s, h0, h1, e⟩ := pointLine_attained ⟨xf, yf⟩ (xy it.v0) (xy it.v1)
        rw [← e] at h
        refine key _ ⟨1 - s, s, 0, by linarith, h0, le_rfl, by ring, ?_⟩ h.le
        ext <;> simp <;> ring
      · obtain ⟨s, h0, h1, e⟩ := pointLine_attained ⟨xf, yf⟩ (xy it.v0) (xy it.v2)
        rw [← e] at h
        refine key _ ⟨1 - s, 0, s, by linarith, le_rfl, h0, by ring, ?_⟩ h.le
        ext <;> simp <;> ring
    · obtain ⟨s, h0, h1, e⟩ := pointLine_attained ⟨xf, yf⟩ (xy it.v1) (xy it.v2)
      rw [← e] at h
      refine key _ ⟨0, 1 - s, s, le_rfl, by linarith, h0, by ring, ?_⟩ h.le
      ext <;> simp <;> ring

theorem inside_iff {cfg : RCfg F} {it : FItem F} {xf yf : F} (hz : kEps ≤ it.v0.z ∧ kEps ≤ it.v1.z ∧ kEps ≤ it.v2.z)
    (ha : kEps < |edge (xy it.v2) (xy it.v0) (xy it.v1)|) :
    inside (faceBary cfg it xf yf) = true ↔ InTri ⟨xf, yf⟩ (xy it.v0) (xy it.v1) (xy it.v2) := by
  rw [← bary_inside ha]
  have hk := kEps_pos (K := F)
  unfold inside
  rw [decide_eq_true_eq]
  unfold faceBary
  dsimp only
  split
  · obtain ⟨h1, h2, h3⟩ := perspCorrect_sign (b := bary ⟨xf, yf⟩ (xy it.v0) (xy it.v1) (xy it.v2))
      (hk.trans_le hz.1) (hk.trans_le hz.2.1) (hk.trans_le hz.2.2)
    rw [gt_iff_lt, gt_iff_lt, gt_iff_lt, h1, h2, h3]
  · rfl

theorem edge_cyclic (a b c : V2 F) : edge a b c = edge c a b := by simp only [edge]; ring

/-- **C30 (coverage).** A face yields a fragment exactly when it covers the pixel. -/
theorem faceHit_iff {cfg : RCfg F} (hr : 0 ≤ cfg.sqrtBlur) (hb : cfg.sqrtBlur ^ 2 = cfg.blur) {it : FItem F} {xf yf : F}
    {df : F × Frag F} : faceHit cfg xf yf it = some df ↔ FCovers cfg xf yf it df.2 ∧ df.1 = faceDist it xf yf := by
  have hk := kEps_pos (K := F)
  have hzz : ∀ r, outsideBox it r xf yf = false → kEps ≤ it.v0.z ∧ kEps ≤ it.v1.z ∧ kEps ≤ it.v2.z := by
    intro r h
    simp only [outsideBox, decide_eq_false_iff_not, not_or, not_lt] at h
    have := h.2.2.2.2
    exact ⟨this.trans (min_le_left _ _), this.trans ((min_le_right _ _).trans (min_le_left _ _)),
      this.trans ((min_le_right _ _).trans (min_le_right _ _))⟩
  have hpos : ∀ a : F, ¬ (a ≤ kEps ∧ a ≥ -1 * kEps) ↔ kEps < |a| := by
    intro a
    rw [lt_abs]
    constructor
    · intro h
      by_contra h'
      rw [not_or] at h'
      exact h ⟨not_lt.mp h'.1, by linarith [not_lt.mp h'.2]⟩
    · rintro (h | h) ⟨h1, h2⟩ <;> linarith
  simp only [faceHit]
  rw [edge_cyclic]
  constructor
  · intro h
    split_ifs at h with h1 h2 h3 h4 h5 h6 <;> simp only [Option.some.injEq] at h <;> subst h
    all_goals
      have hz := hzz _ (by simpa using h3)
      have ha := (hpos _).mp h2
      have hin := inside_iff (cfg := cfg) (xf := xf) (yf := yf) hz ha
    · exact ⟨⟨hz, ha, fun hc => not_lt.mp fun hl => h1 ⟨hc, hl⟩, Or.inl (hin.mp h6), not_lt.mp h4, rfl, rfl,
        ⟨fun _ => rfl, fun hn => absurd (hin.mp h6) hn⟩, rfl⟩, rfl⟩
    · have hd : faceDist it xf yf < cfg.blur := by
        by_contra hd
        exact h5 ⟨h6, not_lt.mp hd⟩
      exact ⟨⟨hz, ha, fun hc => not_lt.mp fun hl => h1 ⟨hc, hl⟩, Or.inr hd, not_lt.mp h4, rfl, rfl,
        ⟨fun hn => absurd (hin.mpr hn) h6, fun _ => rfl⟩, rfl⟩, rfl⟩
  · rintro ⟨hc, hd⟩
    obtain ⟨d, f⟩ := df
    simp only at hc hd
    have hin := inside_iff (cfg := cfg) (xf := xf) (yf := yf) hc.front hc.area
    rw [if_neg (fun h => not_lt.mpr (hc.facing h.1) h.2), if_neg ((hpos _).mpr hc.area),
      if_neg (by rw [box_redundant hr hb hc.front hc.near]; simp), if_neg (not_lt.mpr hc.depth), if_neg]
    · obtain ⟨z, i, sd, b⟩ := f
      have e1 := hc.idx; have e2 := hc.z; have e3 := hc.bary; have e4 := hc.dist
      simp only at e1 e2 e3 e4
      simp only [Option.some.injEq, Prod.mk.injEq, Frag.mk.injEq]
      refine ⟨hd.symm, e2.symm, e1.symm, ?_, e3.symm⟩
      split
      · rename_i h; exact (e4.1 (hin.mp h)).symm
      · rename_i h; exact (e4.2 fun h' => h (hin.mpr h')).symm
    · rintro ⟨h1, h2⟩
      rcases hc.near with h | h
      · exact h1 (hin.mpr h)
      · exact absurd h (not_lt.mpr h2)

/-- The values of a fragment: barycentric coordinates, perspective corrected and clipped as requested, and the depth they
interpolate. -/
theorem fragment_values {cfg : RCfg F} {it : FItem F} {xf yf : F} {f : Frag F} (h : FCovers cfg xf yf it f) :
    let b0 := bary ⟨xf, yf⟩ ⟨it.v0.x, it.v0.y⟩ ⟨it.v1.x, it.v1.y⟩ ⟨it.v2.x, it.v2.y⟩
    let b1 := if cfg.persp = true then perspCorrect b0 it.v0.z it.v1.z it.v2.z else b0
    f.bary = (if cfg.clip = true then Geom.clip b1 else b1)
    ∧ f.z = f.bary.x * it.v0.z + f.bary.y * it.v1.z + f.bary.z * it.v2.z
    ∧ |f.dist| = |pointTri ⟨xf, yf⟩ ⟨it.v0.x, it.v0.y⟩ ⟨it.v1.x, it.v1.y⟩ ⟨it.v2.x, it.v2.y⟩| := by
  refine ⟨h.bary, ?_, ?_⟩
  · rw [h.z, h.bary]; rfl
  · by_cases hi : InTri ⟨xf, yf⟩ (xy it.v0) (xy it.v1) (xy it.v2)
    · rw [h.dist.1 hi, abs_neg]; rfl
    · rw [h.dist.2 hi]; rfl

theorem faceHitGpu_eq (cfg : RCfg F) (xf yf : F) (it : FItem F) : faceHitGpu cfg xf yf it = faceHit cfg xf yf it := by
  have hk := kEps_pos (K := F)
  have hz : ∀ r, max it.v0.z (max it.v1.z it.v2.z) < 0 → outsideBox it r xf yf = true := by
    intro r h
    simp only [outsideBox, decide_eq_true_eq]
    refine Or.inr (Or.inr (Or.inr (Or.inr ?_)))
    exact (min_le_left _ _).trans_lt (((le_max_left _ _).trans_lt h).trans hk)
  simp only [faceHitGpu, faceHit]
  by_cases h1 : cfg.cull = true ∧ edge (xy it.v0) (xy it.v1) (xy it.v2) < 0
  · rw [if_pos (Or.inr (Or.inl h1)), if_pos h1]
  · rw [if_neg h1]
    by_cases h2 : edge (xy it.v0) (xy it.v1) (xy it.v2) ≤ kEps ∧ edge (xy it.v0) (xy it.v1) (xy it.v2) ≥ -1 * kEps
    · rw [if_pos (Or.inr (Or.inr (Or.inr h2))), if_pos h2]
    · rw [if_neg h2]
      by_cases h3 : outsideBox it cfg.sqrtBlur xf yf = true
      · rw [if_pos (Or.inr (Or.inr (Or.inl h3))), if_pos h3]
      · rw [if_neg h3, if_neg]
        rintro (h | h | h | h)
        · exact h3 (hz _ h)
        · exact h1 h
        · exact h3 h
        · exact h2 h

end cover

/-! ## C30: the pixel -/

section pixel
variable {F : Type} [Field F] [LinearOrder F] [IsStrictOrderedRing F]

theorem frag_z_mono (a b : Frag F) (h : a ≤ b) : a.z ≤ b.z := by
  have h' : toLex (a.z, toLex (a.idx, toLex (a.dist, toLex (a.bary.x, toLex (a.bary.y, a.bary.z)))))
    ≤ toLex (b.z, toLex (b.idx, toLex (b.dist, toLex (b.bary.x, toLex (b.bary.y, b.bary.z))))) := h
  rw [Prod.Lex.toLex_le_toLex] at h'
  rcases h' with h | h
  · exact h.le
  · exact h.1.le

theorem frag_lt (a b : Frag F) (h : a < b) : a.z < b.z ∨ a.z = b.z ∧ a.idx ≤ b.idx := by
  have h' : toLex (a.z, toLex (a.idx, toLex (a.dist, toLex (a.bary.x, toLex (a.bary.y, a.bary.z)))))
    < toLex (b.z, toLex (b.idx, toLex (b.dist, toLex (b.bary.x, toLex (b.bary.y, b.bary.z))))) := h
  rw [Prod.Lex.toLex_lt_toLex] at h'
  rcases h' with h | ⟨h, h2⟩
  · exact Or.inl h
  · rw [Prod.Lex.toLex_lt_toLex] at h2
    rcases h2 with h2 | h2
    · exact Or.inr ⟨h, h2.le⟩
    · exact Or.inr ⟨h, h2.1.le⟩

/-- `r` followed by `-1`s up to length `K`. -/
def fpadded (K : Nat) (r : List (Frag F)) : List (FCell F) :=
  r.map Frag.cell ++ List.replicate (K - r.length) FCell.empty

/-- The fragments of a pixel. -/
def frags (cfg : RCfg F) (xf yf : F) (items : List (FItem F)) : List (Frag F) :=
  items.filterMap fun it => (faceHit cfg xf yf it).map Prod.snd

theorem meshFold_eq (cfg : RCfg F) (K : Nat) {items : List (FItem F)} (hn : ∀ it ∈ items, it.nbr = -1) (xf yf : F) :
    items.foldl (fun q it => stepHit (meshPush K it.nbr) q (faceHit cfg xf yf it)) [] = topK K (frags cfg xf yf items) := by
  rw [← dequeRun_eq]
  unfold frags
  rw [← foldl_hits]
  have : ∀ (l : List (FItem F)) (q : List (Frag F)), (∀ it ∈ l, it.nbr = -1) →
      l.foldl (fun q it => stepHit (meshPush K it.nbr) q (faceHit cfg xf yf it)) q
        = l.foldl (fun q it => stepHit (dequePush K) q ((faceHit cfg xf yf it).map Prod.snd)) q := by
    intro l
    induction l with
    | nil => intro q _; rfl
    | cons it l ih =>
      intro q h
      rw [List.foldl_cons, List.foldl_cons, ih _ fun it' h' => h it' (by simp [h'])]
      congr 1
      rw [h it (by simp)]
      cases faceHit cfg xf yf it with
      | none => rfl
      | some d => simp [stepHit, meshPush, meshPre, findNbr, sortTrim, dequePush]
  exact this items [] hn

theorem meshPixelCpu_eq (cfg : RCfg F) (K : Nat) {items : List (FItem F)} (hn : ∀ it ∈ items, it.nbr = -1) (xf yf : F) :
    meshPixelCpu cfg K items xf yf = fpadded K (topK K (frags cfg xf yf items)) := by
  unfold meshPixelCpu fpadded
  rw [meshFold_eq cfg K hn, drain_eq _ _ _ (by rw [length_topK, List.length_replicate]; omega), List.drop_replicate]

theorem mem_frags {cfg : RCfg F} (hr : 0 ≤ cfg.sqrtBlur) (hb : cfg.sqrtBlur ^ 2 = cfg.blur) {items : List (FItem F)}
    {xf yf : F} {f : Frag F} : f ∈ frags cfg xf yf items ↔ ∃ it ∈ items, FCovers cfg xf yf it f := by
  unfold frags
  rw [List.mem_filterMap]
  constructor
  · rintro ⟨it, hit, h⟩
    obtain ⟨df, e, rfl⟩ := Option.map_eq_some_iff.mp h
    exact ⟨it, hit, ((faceHit_iff hr hb).mp e).1⟩
  · rintro ⟨it, hit, h⟩
    exact ⟨it, hit, by rw [(faceHit_iff hr hb (df := (faceDist it xf yf, f))).mpr ⟨h, rfl⟩]; rfl⟩

theorem faceHit_idx {cfg : RCfg F} {xf yf : F} {it : FItem F} {df : F × Frag F} (h : faceHit cfg xf yf it = some df) :
    df.2.idx = it.idx ∧ 0 ≤ df.2.z := by
  simp only [faceHit] at h
  split_ifs at h with h1 h2 h3 h4 h5 h6 <;> simp only [Option.some.injEq] at h <;> subst h <;>
    exact ⟨rfl, not_lt.mp h4⟩

theorem frags_idx (cfg : RCfg F) (xf yf : F) (items : List (FItem F)) :
    ((frags cfg xf yf items).map Frag.idx).Sublist (items.map FItem.idx) := by
  unfold frags
  induction items with
  | nil => simp
  | cons it items ih =>
    rw [List.filterMap_cons]
    cases h : faceHit cfg xf yf it with
    | none => exact ih.cons _
    | some df =>
      simp only [Option.map_some, List.map_cons, (faceHit_idx h).1]
      exact ih.cons_cons _

/-- **C30 (pixel).** Without clipped faces a pixel holds the `K` covering faces of smallest (depth, index), in order,
then `-1`. -/
theorem meshPixelCpu_spec {cfg : RCfg F} (hr : 0 ≤ cfg.sqrtBlur) (hb : cfg.sqrtBlur ^ 2 = cfg.blur) (K : Nat)
    {items : List (FItem F)} (hn : ∀ it ∈ items, it.nbr = -1) (hnd : (items.map FItem.idx).Nodup) (xf yf : F) :
    ∃ r, meshPixelCpu cfg K items xf yf = fpadded K r ∧ r.Pairwise (fun a b => a.z < b.z ∨ a.z = b.z ∧ a.idx < b.idx)
      ∧ (∀ f ∈ r, ∃ it ∈ items, FCovers cfg xf yf it f) ∧ r.length ≤ K
      ∧ ∀ f, (∃ it ∈ items, FCovers cfg xf yf it f) → f ∉ r →
          r.length = K ∧ ∀ g ∈ r, g.z < f.z ∨ g.z = f.z ∧ g.idx < f.idx := by
  have hN : ((frags cfg xf yf items).map Frag.idx).Nodup := (frags_idx cfg xf yf items).nodup hnd
  have hinj : ∀ a ∈ frags cfg xf yf items, ∀ b ∈ frags cfg xf yf items, a.idx = b.idx → a = b :=
    fun a ha b hb h => List.inj_on_of_nodup_map hN ha hb h
  have hk := topK_isKSmallest K (frags cfg xf yf items)
  obtain ⟨rest, hp, hle⟩ := hk.split
  have hnd2 : (topK K (frags cfg xf yf items) ++ rest).Nodup := hp.nodup_iff.mpr hN.of_map
  rw [List.nodup_append] at hnd2
  have key : ∀ a ∈ frags cfg xf yf items, ∀ b ∈ frags cfg xf yf items, a ≤ b → a ≠ b →
      a.z < b.z ∨ a.z = b.z ∧ a.idx < b.idx := by
    intro a ha b hb h hne
    rcases frag_lt a b (lt_of_le_of_ne h hne) with h | ⟨h1, h2⟩
    · exact Or.inl h
    · exact Or.inr ⟨h1, lt_of_le_of_ne h2 fun e => hne (hinj a ha b hb e)⟩
  refine ⟨_, meshPixelCpu_eq cfg K hn xf yf, ?_, fun f hf => (mem_frags hr hb).mp (mem_of_mem_topK hf), ?_, ?_⟩
  · refine (List.Pairwise.and hk.sorted hnd2.1).imp_of_mem ?_
    intro a b ha hb hab
    exact key a (mem_of_mem_topK ha) b (mem_of_mem_topK hb) hab.1 hab.2
  · rw [length_topK]; omega
  · intro f hf hnr
    have hf' := (mem_frags hr hb).mpr hf
    have hrest : f ∈ rest := by
      rcases List.mem_append.mp (hp.mem_iff.mpr hf') with h | h
      · exact absurd h hnr
      · exact h
    refine ⟨?_, fun g hg => ?_⟩
    · have h1 := hp.length_eq
      have h2 := List.length_pos_of_mem hrest
      rw [List.length_append, length_topK] at h1
      rw [length_topK]; omega
    · exact key g (mem_of_mem_topK hg) f hf' (hle g hg f hrest) (fun e => hnr (e ▸ hg))

/-! ### Clipped neighbours -/

/-- No face is in the queue together with its neighbour, and no face is there twice. -/
structure Exclusive (nb : Nat → ℤ) (q : List (Frag F)) : Prop where
  nodup : (q.map Frag.idx).Nodup
  excl : ∀ a ∈ q, ∀ b ∈ q, (a.idx : ℤ) ≠ nb b.idx

theorem sortTrim_sub (K : Nat) (q : List (Frag F)) : ∃ q', q'.Perm q ∧ (sortTrim K q).Sublist q' := by
  refine ⟨q.insertionSort (· ≤ ·), List.perm_insertionSort _ _, ?_⟩
  unfold sortTrim
  split
  · exact List.dropLast_sublist _
  · exact List.Sublist.refl _

theorem Exclusive.sortTrim {nb : Nat → ℤ} {q : List (Frag F)} (h : Exclusive nb q) (K : Nat) :
    Exclusive nb (sortTrim K q) := by
  obtain ⟨q', hp, hs⟩ := sortTrim_sub K q
  exact ⟨(hs.map _).nodup ((hp.map _).nodup_iff.mpr h.nodup),
    fun a ha b hb => h.excl a (hp.mem_iff.mp (hs.subset ha)) b (hp.mem_iff.mp (hs.subset hb))⟩

theorem meshPre_mem {nbr : ℤ} {q : List (Frag F)} {dx : F × Frag F} {f : Frag F} (h : f ∈ meshPre nbr q dx) :
    f ∈ q ∨ f = dx.2 := by
  unfold meshPre at h
  split at h
  · split at h
    · exact List.mem_or_eq_of_mem_set h
    · exact Or.inl h
  · simpa using h

theorem meshPush_mem {K : Nat} {nbr : ℤ} {q : List (Frag F)} {dx : F × Frag F} {f : Frag F}
    (h : f ∈ meshPush K nbr q dx) : f ∈ q ∨ f = dx.2 := by
  obtain ⟨q', hp, hs⟩ := sortTrim_sub K (meshPre nbr q dx)
  exact meshPre_mem (hp.mem_iff.mp (hs.subset h))

theorem Exclusive.meshPre {nb : Nat → ℤ} (hself : ∀ i : Nat, (i : ℤ) ≠ nb i) (hinv : ∀ i j : Nat, nb i = j → nb j = i)
    {q : List (Frag F)} {dx : F × Frag F} (h : Exclusive nb q) (hnew : dx.2.idx ∉ q.map Frag.idx) :
    Exclusive nb (meshPre (nb dx.2.idx) q dx) := by
  unfold Raster.meshPre
  split
  · rename_i k hk
    unfold findNbr at hk
    split_ifs at hk with hm
    obtain ⟨hlt, hkk, -⟩ := List.findIdx?_eq_some_iff_getElem.mp hk
    have hk' : ((q[k]).idx : ℤ) = nb dx.2.idx := by simpa using hkk
    split
    · have huniq : ∀ a ∈ q.set k dx.2, a ≠ dx.2 → (a.idx : ℤ) ≠ nb dx.2.idx := by
        intro a ha hne e
        obtain ⟨j, hj, rfl⟩ := List.mem_iff_getElem.mp ha
        rw [List.length_set] at hj
        rw [List.getElem_set] at hne e
        split_ifs at hne e with hjk
        · exact hne rfl
        · rw [← hk', Int.ofNat_inj] at e
          have := (List.Nodup.getElem_inj_iff h.nodup (i := j) (j := k) (hi := by simpa using hj)
            (hj := by simpa using hlt)).mp (by simpa using e)
          exact hjk this.symm
      constructor
      · rw [List.map_set]
        exact List.Nodup.set h.nodup hnew
      · intro a ha b hb e
        by_cases ea : a = dx.2 <;> by_cases eb : b = dx.2
        · subst ea; subst eb; exact hself _ e
        · subst ea
          exact huniq b hb eb (hinv _ _ e.symm).symm
        · subst eb; exact huniq a ha ea e
        · have ha' := (List.mem_or_eq_of_mem_set ha).resolve_right ea
          have hb' := (List.mem_or_eq_of_mem_set hb).resolve_right eb
          exact h.excl a ha' b hb' e
    · exact h
  · rename_i hk
    have hno : ∀ a ∈ q, (a.idx : ℤ) ≠ nb dx.2.idx := by
      intro a ha e
      unfold findNbr at hk
      split_ifs at hk with hm
      · rw [List.findIdx?_eq_none_iff] at hk
        have := hk a ha
        simp [e] at this
      · rw [not_not] at hm
        rw [hm] at e
        omega
    constructor
    · rw [List.map_append, List.nodup_append]
      refine ⟨h.nodup, by simp, ?_⟩
      intro a ha b hb e
      simp only [List.map_cons, List.map_nil, List.mem_singleton] at hb
      subst hb; subst e
      exact hnew ha
    · intro a ha b hb e
      rw [List.mem_append, List.mem_singleton] at ha hb
      rcases ha with ha | rfl <;> rcases hb with hb | rfl
      · exact h.excl a ha b hb e
      · exact hno a ha e
      · exact hno b hb (hinv _ _ e.symm).symm
      · exact hself _ e

theorem sortTrim_spec {K : Nat} {q : List (Frag F)} (h : q.length ≤ K + 1) :
    (sortTrim K q).Pairwise (· ≤ ·) ∧ (sortTrim K q).length ≤ K := by
  have hs := List.pairwise_insertionSort (· ≤ ·) q
  have hl : (q.insertionSort (· ≤ ·)).length = q.length := List.length_insertionSort _ _
  unfold sortTrim
  split
  · exact ⟨hs.sublist (List.dropLast_sublist _), by rw [List.length_dropLast]; omega⟩
  · exact ⟨hs, by omega⟩

theorem meshPre_length (nbr : ℤ) (q : List (Frag F)) (dx : F × Frag F) : (meshPre nbr q dx).length ≤ q.length + 1 := by
  unfold meshPre
  split
  · split <;> simp
  · simp

/-- **C30 (neighbours).** When faces were split by the camera plane, every pixel is sorted by depth, holds at most `K`
fragments, each of a covering face, and never a face together with the other half of the split. -/
theorem neighbours_spec {cfg : RCfg F} (hr : 0 ≤ cfg.sqrtBlur) (hb : cfg.sqrtBlur ^ 2 = cfg.blur) (K : Nat)
    {items : List (FItem F)} {nb : Nat → ℤ} {xf yf : F} (hnb : ∀ it ∈ items, it.nbr = nb it.idx)
    (hself : ∀ i : Nat, (i : ℤ) ≠ nb i) (hinv : ∀ i j : Nat, nb i = j → nb j = i) (hnd : (items.map FItem.idx).Nodup) :
    ∃ r, meshPixelCpu cfg K items xf yf = fpadded K r ∧ r.Pairwise (fun a b => a.z ≤ b.z) ∧ r.length ≤ K
      ∧ (∀ f ∈ r, ∃ it ∈ items, FCovers cfg xf yf it f) ∧ Exclusive nb r := by
  have gen : ∀ (l done : List (FItem F)) (q : List (Frag F)), done ++ l = items → Exclusive nb q → q.length ≤ K →
      q.Pairwise (· ≤ ·) → (∀ f ∈ q, ∃ it ∈ done, FCovers cfg xf yf it f) →
      let r := l.foldl (fun q it => stepHit (meshPush K it.nbr) q (faceHit cfg xf yf it)) q
      r.Pairwise (· ≤ ·) ∧ r.length ≤ K ∧ (∀ f ∈ r, ∃ it ∈ items, FCovers cfg xf yf it f) ∧ Exclusive nb r := by
    intro l
    induction l with
    | nil =>
      intro done q e hq hl hs hc
      rw [List.append_nil] at e
      subst e
      exact ⟨hs, hl, hc, hq⟩
    | cons it l ih =>
      intro done q e hq hl hs hc
      have e' : (done ++ [it]) ++ l = items := by rw [← e]; simp
      have hcov : ∀ f, (∃ it ∈ done, FCovers cfg xf yf it f) → ∃ i ∈ done ++ [it], FCovers cfg xf yf i f := by
        rintro f ⟨i, hi, h⟩
        exact ⟨i, by simp [hi], h⟩
      simp only [List.foldl_cons]
      cases hf : faceHit cfg xf yf it with
      | none => exact ih (done ++ [it]) q e' hq hl hs fun f h => hcov f (hc f h)
      | some df =>
        have hidx := (faceHit_idx hf).1
        have hit : it ∈ items := by rw [← e]; simp
        have hnew : df.2.idx ∉ q.map Frag.idx := by
          intro h
          obtain ⟨f, hfq, hfe⟩ := List.mem_map.mp h
          obtain ⟨i, hi, hci⟩ := hc f hfq
          rw [hci.idx, hidx] at hfe
          rw [← e, List.map_append, List.nodup_append] at hnd
          exact hnd.2.2 _ (List.mem_map_of_mem hi) _ (by simp) hfe
        have hnbr : it.nbr = nb df.2.idx := by rw [hidx]; exact hnb it hit
        have h3 := sortTrim_spec (K := K) ((meshPre_length it.nbr q df).trans (Nat.add_le_add_right hl 1))
        refine ih (done ++ [it]) (meshPush K it.nbr q df) e' ?_ h3.2 h3.1 ?_
        · unfold meshPush
          rw [hnbr]
          exact (hq.meshPre hself hinv hnew).sortTrim K
        · intro f hfm
          rcases meshPush_mem hfm with h | rfl
          · exact hcov f (hc f h)
          · exact ⟨it, by simp, ((faceHit_iff hr hb).mp hf).1⟩
  obtain ⟨h1, h2, h3, h4⟩ := gen items [] [] rfl ⟨by simp, by simp⟩ (Nat.zero_le _) List.Pairwise.nil (by simp)
  refine ⟨_, ?_, h1.imp fun h => frag_z_mono _ _ h, h2, h3, h4⟩
  unfold meshPixelCpu fpadded
  rw [drain_eq _ _ _ (by rw [List.length_replicate]; exact h2), List.drop_replicate]

end pixel

/-! ## C30: threads -/

section threads
variable {F : Type} [Field F] [LinearOrder F] [IsStrictOrderedRing F]

/-- Row `yi` belongs to some thread exactly when it is a row of the image. -/
theorem threadRows_cover {H n : Nat} (hn : 0 < n) (yi : Nat) :
    (∃ r ∈ threadRows H n, r.1 ≤ yi ∧ yi < r.2) ↔ yi < H := by
  unfold threadRows
  dsimp only
  constructor
  · rintro ⟨r, hr, h1, h2⟩
    obtain ⟨i, hi, rfl⟩ := List.mem_map.mp hr
    simp only [lt_min_iff] at h2
    exact h2.2
  · intro h
    have hc : 0 < 1 + (H - 1) / n := Nat.lt_of_lt_of_le Nat.one_pos (Nat.le_add_right _ _)
    have hH : H ≤ n * (1 + (H - 1) / n) := by
      have := Nat.div_add_mod (H - 1) n
      have := Nat.mod_lt (H - 1) hn
      rw [Nat.mul_add, Nat.mul_one]; omega
    generalize 1 + (H - 1) / n = c at *
    refine ⟨_, List.mem_map.mpr ⟨yi / c, List.mem_range.mpr ?_, rfl⟩, ?_, ?_⟩
    · rw [Nat.div_lt_iff_lt_mul hc]; omega
    · exact Nat.div_mul_le_self yi c
    · have h1 := Nat.div_add_mod yi c
      have h2 := Nat.mod_lt yi hc
      rw [Nat.mul_comm] at h1
      simp only [lt_min_iff]
      omega

/-- No row belongs to two threads, so the threads never store to the same address. -/
theorem threadRows_disjoint {H n : Nat} : (threadRows H n).Pairwise fun r r' => r.2 ≤ r'.1 := by
  unfold threadRows
  dsimp only
  rw [List.pairwise_map]
  refine List.pairwise_lt_range.imp ?_
  intro a b h
  generalize 1 + (H - 1) / n = c
  have : a * c + c ≤ b * c := by rw [← Nat.succ_mul]; exact Nat.mul_le_mul_right c h
  exact (min_le_left _ _).trans this

/-- What the worker stores in pixel `p` does not depend on the rows it was given. -/
def pixelValue (cfg : RCfg F) (H W K : Nat) (meshes : List (List (FItem F))) (p : Nat × Nat × Nat) : List (FCell F) :=
  meshPixelCpu cfg K (meshes.getD p.1 []) (pixToNdc (W - 1 - p.2.2) W H) (pixToNdc (H - 1 - p.2.1) H W)

theorem worker_value {cfg : RCfg F} {H W K : Nat} {meshes : List (List (FItem F))} {rows : Nat × Nat}
    {w : (Nat × Nat × Nat) × List (FCell F)} (h : w ∈ worker cfg H W K meshes rows) :
    w.2 = pixelValue cfg H W K meshes w.1 := by
  simp only [worker, List.mem_flatMap, List.mem_map] at h
  obtain ⟨mn, hm, yi, hy, xi, hx, rfl⟩ := h
  obtain ⟨m, n⟩ := mn
  rw [List.mem_zipIdx_iff_getElem?] at hm
  simp only [pixelValue]
  rw [List.getD_eq_getElem?_getD, hm]
  rfl

theorem mem_worker_fst {cfg : RCfg F} {H W K : Nat} {meshes : List (List (FItem F))} {rows p} :
    p ∈ (worker cfg H W K meshes rows).map Prod.fst ↔ p.1 < meshes.length ∧ (rows.1 ≤ p.2.1 ∧ p.2.1 < rows.2) ∧ p.2.2 < W := by
  obtain ⟨n, yi, xi⟩ := p
  simp only [worker, List.mem_map, List.mem_flatMap, List.mem_range'_1, List.mem_range]
  constructor
  · rintro ⟨w, ⟨mn, hm, y, hy, x, hx, rfl⟩, e⟩
    obtain ⟨m, k⟩ := mn
    simp only [Prod.mk.injEq] at e
    obtain ⟨rfl, rfl, rfl⟩ := e
    rw [List.mem_zipIdx_iff_getElem?] at hm
    have := (List.getElem?_eq_some_iff.mp hm).1
    exact ⟨this, ⟨hy.1, by omega⟩, hx⟩
  · rintro ⟨h1, h2, h3⟩
    refine ⟨_, ⟨(meshes[n], n), ?_, yi, ⟨h2.1, by omega⟩, xi, h3, rfl⟩, rfl⟩
    rw [List.mem_zipIdx_iff_getElem?]
    simp [h1]

/-- **C30 (threads).** For every number of threads and every interleaving of their stores, the image is the image of the
sequential loop: pixel `(n, yi, xi)` of the image holds the result of that pixel, every other address is untouched. -/
theorem threads_spec (cfg : RCfg F) {H W K n : Nat} (hn : 0 < n) (meshes : List (List (FItem F)))
    (init : Nat × Nat × Nat → List (FCell F)) {sched : List ((Nat × Nat × Nat) × List (FCell F))}
    (hs : sched.Perm ((threadRows H n).flatMap (worker cfg H W K meshes))) (p : Nat × Nat × Nat) :
    Store.storeAll init sched p
      = if p.1 < meshes.length ∧ p.2.1 < H ∧ p.2.2 < W then pixelValue cfg H W K meshes p else init p := by
  rw [Store.storeAll_fn init (pixelValue cfg H W K meshes) sched]
  · congr 1
    rw [(hs.map _).mem_iff, eq_iff_iff]
    simp only [List.map_flatMap, List.mem_flatMap, mem_worker_fst]
    constructor
    · rintro ⟨r, hr, h1, h2, h3⟩
      exact ⟨h1, (threadRows_cover hn _).mp ⟨r, hr, h2⟩, h3⟩
    · rintro ⟨h1, h2, h3⟩
      obtain ⟨r, hr, h⟩ := (threadRows_cover hn _).mpr h2
      exact ⟨r, hr, h1, h, h3⟩
  · intro w hw
    obtain ⟨r, _, h⟩ := List.mem_flatMap.mp (hs.mem_iff.mp hw)
    exact worker_value h

/-- Every address is stored at most once in a run: no two threads write to the same place. -/
theorem threads_no_race (cfg : RCfg F) {H W K n : Nat} (meshes : List (List (FItem F))) :
    (((threadRows H n).flatMap (worker cfg H W K meshes)).map Prod.fst).Nodup := by
  rw [List.map_flatMap, List.nodup_flatMap]
  constructor
  · intro r _
    have : (worker cfg H W K meshes r).map Prod.fst
        = (List.range meshes.length).flatMap fun n => (List.range' r.1 (r.2 - r.1)).flatMap fun yi =>
            (List.range W).map fun xi => (n, yi, xi) := by
      simp only [worker, List.map_flatMap, List.map_map]
      rw [List.range_eq_range' (n := meshes.length), ← List.zipIdx_map_snd 0 meshes, List.flatMap_map]
      rfl
    rw [this, List.nodup_flatMap]
    refine ⟨fun n _ => ?_, ?_⟩
    · rw [List.nodup_flatMap]
      refine ⟨fun y _ => List.nodup_range.map fun a b h => by simpa using h, ?_⟩
      refine (List.nodup_range' (step := 1)).pairwise_of_forall_ne ?_
      intro a _ b _ hab
      simp only [Function.onFun, List.disjoint_left, List.mem_map, not_exists, not_and]
      rintro _ ⟨x, _, rfl⟩ x' _ e
      simp only [Prod.mk.injEq] at e
      exact hab e.2.1.symm
    · refine List.nodup_range.pairwise_of_forall_ne ?_
      intro a _ b _ hab
      simp only [Function.onFun, List.disjoint_left, List.mem_flatMap, List.mem_map, not_exists, not_and]
      rintro _ ⟨y, _, x, _, rfl⟩ y' _ x' _ e
      simp only [Prod.mk.injEq] at e
      exact hab e.1.symm
  · refine threadRows_disjoint.imp ?_
    intro r r' h
    simp only [Function.onFun, List.disjoint_left, mem_worker_fst]
    rintro p ⟨_, h1, _⟩ ⟨_, h2, _⟩
    omega

end threads

/-! ## C32: the GPU kernel -/

section gpu
variable {F : Type} [Field F] [LinearOrder F] [IsStrictOrderedRing F]

theorem fragKey_mono (a b : Frag F) (h : fragKey a ≤ fragKey b) : a.z ≤ b.z := by
  unfold fragKey at h
  rw [Prod.Lex.toLex_le_toLex] at h
  rcases h with h | h
  · exact h.le
  · exact h.1.le

theorem foldlM_congr' {α γ : Type} {f g : γ → α → Option γ} {l : List α} (h : ∀ a ∈ l, ∀ s, f s a = g s a) (s : γ) :
    l.foldlM f s = l.foldlM g s := by
  induction l generalizing s with
  | nil => rfl
  | cons a l ih =>
    rw [List.foldlM_cons, List.foldlM_cons, h a (by simp)]
    congr 1
    funext s'
    exact ih (fun a' h' => h a' (by simp [h'])) s'

/-- **C32 (meshes).** Without clipped faces the GPU pixel holds the `K` nearest covering faces. -/
theorem meshPixelGpu_spec (cfg : RCfg F) (K : Nat) {items : List (FItem F)} (hn : ∀ it ∈ items, it.nbr = -1) (xf yf : F) :
    ∃ r, meshPixelGpu cfg K items xf yf = some (fpadded K r) ∧ NearestK Frag.z K (frags cfg xf yf items) r := by
  have hz : ∀ f ∈ frags cfg xf yf items, 0 ≤ f.z := by
    intro f hf
    obtain ⟨it, _, h⟩ := List.mem_filterMap.mp hf
    obtain ⟨df, e, rfl⟩ := Option.map_eq_some_iff.mp h
    exact (faceHit_idx e).2
  obtain ⟨r, e, hr⟩ := gpuPixel_spec Frag.z fragKey fragKey_mono K _ hz
  refine ⟨r, ?_, hr⟩
  have hf : items.foldlM (fun s it => stepHitM (gpuMeshPush K it.nbr) s (faceHitGpu cfg xf yf it)) (gq0 : GQ (Frag F) F)
      = (frags cfg xf yf items).foldlM (gpuPush Frag.z K) gq0 := by
    unfold frags
    rw [← foldlM_hits]
    refine foldlM_congr' ?_ _
    intro it hit s
    rw [faceHitGpu_eq, hn it hit]
    cases faceHit cfg xf yf it with
    | none => rfl
    | some df => simp [stepHitM, gpuMeshPush, findNbr]
  unfold meshPixelGpu fpadded
  rw [hf]
  unfold gpuPixel at e
  obtain ⟨s, es, rfl⟩ := Option.map_eq_some_iff.mp e
  rw [es]; rfl

/-- Without clipped faces CPU and GPU show the same depths, and the same faces if the depths are distinct. -/
theorem meshPixel_cpu_gpu (cfg : RCfg F) (K : Nat) {items : List (FItem F)} (hn : ∀ it ∈ items, it.nbr = -1) (xf yf : F) :
    (∃ o, meshPixelGpu cfg K items xf yf = some o ∧ o.map FCell.z = (meshPixelCpu cfg K items xf yf).map FCell.z)
    ∧ ((∀ f ∈ frags cfg xf yf items, ∀ g ∈ frags cfg xf yf items, f.z = g.z → f = g) →
        meshPixelGpu cfg K items xf yf = some (meshPixelCpu cfg K items xf yf)) := by
  obtain ⟨r, e, hr⟩ := meshPixelGpu_spec cfg K hn xf yf
  have hc := topK_nearest Frag.z frag_z_mono K (frags cfg xf yf items)
  constructor
  · refine ⟨_, e, ?_⟩
    rw [meshPixelCpu_eq cfg K hn]
    have h1 : r.map Frag.z = (topK K (frags cfg xf yf items)).map Frag.z := by rw [hr.depths, hc.depths]
    have h2 : r.length = (topK K (frags cfg xf yf items)).length := by simpa using congrArg List.length h1
    unfold fpadded
    rw [List.map_append, List.map_append, List.map_map, List.map_map, h2]
    congr 1
  · intro hd
    rw [e, meshPixelCpu_eq cfg K hn, NearestK.unique Frag.z (List.Perm.refl _) hd hr hc]

end gpu

/-! ## Examples -/

/-- Two squares' halves: a near and a far triangle, both around the origin. -/
def exFaces : List (FItem ℚ) :=
  [⟨0, ⟨-1, -1, 3⟩, ⟨1, -1, 3⟩, ⟨0, 1, 3⟩, -1⟩, ⟨1, ⟨-1, -1, 2⟩, ⟨1, -1, 2⟩, ⟨0, 1, 2⟩, -1⟩, ⟨2, ⟨5, 5, 1⟩, ⟨6, 5, 1⟩, ⟨5, 6, 1⟩, -1⟩]

def exCfg : RCfg ℚ := ⟨1/100, 1/10, true, false, false⟩

example : (meshPixelCpu exCfg 3 exFaces 0 0).map FCell.face = [1, 0, -1]
    ∧ (meshPixelCpu exCfg 3 exFaces 0 0).map FCell.z = [2, 3, -1] := by decide +kernel

example : meshPixelGpu exCfg 1 exFaces 0 0 = some (meshPixelCpu exCfg 1 exFaces 0 0) := by decide +kernel

/-- A split face: faces 0 and 1 are neighbours; only the closer one stays. -/
example : (meshPixelCpu exCfg 3 [⟨0, ⟨-1, -1, 3⟩, ⟨1, -1, 3⟩, ⟨0, 1, 3⟩, 1⟩, ⟨1, ⟨-1, -1/5, 2⟩, ⟨1, -1/5, 2⟩, ⟨0, 1, 2⟩, 0⟩] 0 0).map FCell.face
    = [1, -1, -1] := by decide +kernel

example : threadRows 5 3 = [(0, 2), (2, 4), (4, 5)] ∧ threadRows 2 4 = [(0, 1), (1, 2), (2, 2), (3, 2)] := by
  decide +kernel

/-- The GPU kernel does not update `q_max_z` when a neighbour overwrites the current maximum with a nearer face: with
`K = 2` a later face of depth 4 then evicts the face of depth 2. The CPU keeps the nearest two. -/
theorem gpu_stale_max :
    (((([(-1, (1, ⟨5, 0, 1, ⟨0, 0, 1⟩⟩)), (-1, (1, ⟨1, 1, 1, ⟨0, 0, 1⟩⟩)), (0, (0, ⟨2, 2, 0, ⟨0, 0, 1⟩⟩)),
        (-1, (1, ⟨4, 3, 1, ⟨0, 0, 1⟩⟩))] : List (ℤ × ℚ × Frag ℚ)).foldlM
      (fun s x => gpuMeshPush 2 x.1 s x.2) gq0).map fun s => (bubbleSort fragKey s.q).map Frag.z) = some [1, 4])
    ∧ ((([(-1, (1, ⟨5, 0, 1, ⟨0, 0, 1⟩⟩)), (-1, (1, ⟨1, 1, 1, ⟨0, 0, 1⟩⟩)), (0, (0, ⟨2, 2, 0, ⟨0, 0, 1⟩⟩)),
        (-1, (1, ⟨4, 3, 1, ⟨0, 0, 1⟩⟩))] : List (ℤ × ℚ × Frag ℚ)).foldl
      (fun q x => meshPush 2 x.1 q x.2) []).map Frag.z = [1, 2]) := by
  decide +kernel

end P3D.Raster
