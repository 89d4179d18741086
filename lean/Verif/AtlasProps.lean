/-
Properties of texture atlases (claim C53): which texel a fragment reads, agreement with the construction from images, and the
cases where the code departs from the documentation.
-/
import Verif.Atlas

set_option linter.unusedSectionVars false
set_option linter.unusedSimpArgs false

namespace P3D.Atlas

open P3D.Uv

variable {K : Type} [Field K] [LinearOrder K] [IsStrictOrderedRing K] [FloorRing K]

/-! ### Reading -/

theorem pyIdx_nat {n i : Nat} (h : i < n) : pyIdx n (i : Int) = some i := by
  unfold pyIdx
  rw [if_pos (by omega), if_pos (by omega)]; simp

theorem pyIdx_of {n : Nat} {i : Int} (h0 : 0 ≤ i) (h1 : i < n) : pyIdx n i = some i.toNat := by
  unfold pyIdx
  rw [if_pos h0, if_pos h1]

theorem sample_cell {R : Nat} {atlas : List (Nat → Nat → K)} {p : Nat} {a : Nat → Nat → K} (ha : atlas[p]? = some a) {b0 b1 : K}
    {x y : Nat} (hx : x < R) (hy : y < R) (hc : cell R b0 b1 = ((x : Int), (y : Int))) : sample R atlas p b0 b1 = some (a y x) := by
  have hp : p < atlas.length := (List.getElem?_eq_some_iff.mp ha).1
  unfold sample
  simp only
  rw [if_neg (by omega), hc, pyIdx_nat hp]
  simp only [Option.bind_some]
  rw [pyIdx_nat hy, pyIdx_nat hx]
  simp [ha]

/-- A fragment strictly inside the small triangle of texel `(x, y)` reads that texel. -/
theorem atlas_inside {R : Nat} {atlas : List (Nat → Nat → K)} {p : Nat} {a : Nat → Nat → K} (ha : atlas[p]? = some a) {b : K × K}
    {x y : Nat} (hx : x < R) (hy : y < R) (h : Inside R ((x : Int), (y : Int)) b) : sample R atlas p b.1 b.2 = some (a y x) :=
  sample_cell ha hx hy (cell_inside hx hy h)

/-- Indices stay in range for coordinates above `-1/R`, however large they are. -/
theorem cell_total {R : Nat} (hR : 1 ≤ R) {b0 b1 : K} (h0 : -1 < b0 * R) (h1 : -1 < b1 * R) :
    ∃ x y : Nat, x < R ∧ y < R ∧ cell R b0 b1 = ((x : Int), (y : Int)) := by
  have key : ∀ X : K, -1 < X → 0 ≤ min (truncZ X) ((R : Int) - 1) ∧ min (truncZ X) ((R : Int) - 1) < R := by
    intro X hX
    have : 0 ≤ truncZ X := by
      unfold truncZ
      split
      · rename_i h; exact Int.floor_nonneg.mpr h
      · have : -1 < ⌈X⌉ := by
          rw [Int.lt_ceil]; push_cast; exact hX
        omega
    omega
  obtain ⟨a0, a1⟩ := key _ h0
  obtain ⟨c0, c1⟩ := key _ h1
  unfold cell
  simp only
  generalize min (truncZ (b0 * (R : K))) ((R : Int) - 1) = wx at *
  generalize min (truncZ (b1 * (R : K))) ((R : Int) - 1) = wy at *
  split
  · exact ⟨wx.toNat, wy.toNat, by omega, by omega, by rw [Int.toNat_of_nonneg a0, Int.toNat_of_nonneg c0]⟩
  · refine ⟨((R : Int) - 1 - wx).toNat, ((R : Int) - 1 - wy).toNat, by omega, by omega, ?_⟩
    rw [Int.toNat_of_nonneg (by omega), Int.toNat_of_nonneg (by omega)]

/-- Reading never fails for such coordinates, and returns a texel of the face. -/
theorem atlas_total {R : Nat} (hR : 1 ≤ R) {atlas : List (Nat → Nat → K)} {p : Nat} {a : Nat → Nat → K} (ha : atlas[p]? = some a)
    {b0 b1 : K} (h0 : -1 < b0 * R) (h1 : -1 < b1 * R) : ∃ x y : Nat, x < R ∧ y < R ∧ sample R atlas p b0 b1 = some (a y x) := by
  obtain ⟨x, y, hx, hy, hc⟩ := cell_total hR h0 h1
  exact ⟨x, y, hx, hy, sample_cell ha hx hy hc⟩

/-- The texel read belongs to a small triangle that contains the fragment; its centre differs by at most `2/(3R)` in each coordinate. -/
theorem atlas_mem {R : Nat} (hR : 1 ≤ R) {atlas : List (Nat → Nat → K)} {p : Nat} {a : Nat → Nat → K} (ha : atlas[p]? = some a)
    {b : K × K} (hb : Bary b) (hs : ¬ OnSeam R b) :
    ∃ x y : Nat, x < R ∧ y < R ∧ sample R atlas p b.1 b.2 = some (a y x) ∧ InTri R ((x : Int), (y : Int)) b ∧
      |b.1 - (centre R x y : K × K × K).1| ≤ 2 / (3 * R) ∧ |b.2 - (centre R x y : K × K × K).2.1| ≤ 2 / (3 * R) := by
  have hRK : (0 : K) < R := by exact_mod_cast hR
  obtain ⟨x, y, hx, hy, hc⟩ := cell_total (K := K) hR (b0 := b.1) (b1 := b.2)
    (by have := mul_nonneg hb.1 hRK.le; linarith) (by have := mul_nonneg hb.2.1 hRK.le; linarith)
  have hm := cell_mem hR hb hs
  rw [hc] at hm
  exact ⟨x, y, hx, hy, sample_cell ha hx hy hc, hm, centre_close hx hm⟩

/-- Small triangles do not overlap. -/
theorem inside_unique {R x y x' y' : Nat} (hx : x < R) (hy : y < R) (hx' : x' < R) (hy' : y' < R) {b : K × K}
    (h : Inside R ((x : Int), (y : Int)) b) (h' : Inside R ((x' : Int), (y' : Int)) b) : x = x' ∧ y = y' := by
  have := (cell_inside hx hy h).symm.trans (cell_inside hx' hy' h')
  rw [Prod.mk.injEq] at this
  omega

/-- Reading at the centre that was used to build a texel returns this texel. -/
theorem atlas_centre {R : Nat} {atlas : List (Nat → Nat → K)} {p : Nat} {a : Nat → Nat → K} (ha : atlas[p]? = some a)
    {x y : Nat} (hx : x < R) (hy : y < R) :
    sample R atlas p (centre R x y : K × K × K).1 (centre R x y : K × K × K).2.1 = some (a y x) :=
  sample_cell ha hx hy (cell_inside hx hy (centre_inside hx))

/-- The three vertices read what `faces_verts_textures_packed` returns. -/
theorem atlas_vertices {R : Nat} (hR : 1 ≤ R) {atlas : List (Nat → Nat → K)} {p : Nat} {a : Nat → Nat → K} (ha : atlas[p]? = some a) :
    ∃ t : K × K × K, faceVerts R a = some t ∧ sample R atlas p 1 0 = some t.1 ∧ sample R atlas p 0 1 = some t.2.1 ∧
      sample R atlas p 0 0 = some t.2.2 := by
  have hl : pyIdx R (-1) = some (R - 1) := by
    unfold pyIdx
    rw [if_neg (by omega), if_pos (by omega)]
    congr 1; omega
  have hz : pyIdx R 0 = some 0 := by
    have := pyIdx_nat (n := R) (i := 0) (by omega)
    simpa using this
  have t0 : truncZ (0 : K) = 0 := by rw [truncZ_nonneg le_rfl]; simp
  have tR : truncZ (R : K) = R := by rw [truncZ_nonneg (by positivity)]; simp
  have m0 : min (0 : Int) ((R : Int) - 1) = 0 := by omega
  have mR : min (R : Int) ((R : Int) - 1) = ((R - 1 : Nat) : Int) := by omega
  have eR : (((R - 1 : Nat) : Int) : K) = (R : K) - 1 := by
    rw [Int.cast_natCast, Nat.cast_sub hR]; simp
  refine ⟨(a 0 (R - 1), a (R - 1) 0, a 0 0), ?_, ?_, ?_, ?_⟩
  · unfold faceVerts
    rw [hl, hz]; rfl
  · apply sample_cell ha (x := R - 1) (y := 0) (by omega) (by omega)
    unfold cell
    simp only [one_mul, zero_mul, t0, tR, m0, mR, eR, add_zero, Int.cast_zero]
    rw [if_pos (by linarith)]; simp
  · apply sample_cell ha (x := 0) (y := R - 1) (by omega) (by omega)
    unfold cell
    simp only [one_mul, zero_mul, t0, tR, m0, mR, eR, zero_add, Int.cast_zero]
    rw [if_pos (by linarith)]; simp
  · apply sample_cell ha (x := 0) (y := 0) (by omega) (by omega)
    unfold cell
    simp only [zero_mul, t0, m0, add_zero, Int.cast_zero]
    rw [if_pos (by norm_num)]; simp

/-- Background fragments are zero, whatever their barycentric coordinates. -/
theorem atlas_background {R : Nat} (hR : 1 ≤ R) {atlas : List (Nat → Nat → K)} (hne : atlas ≠ []) (b0 b1 : K) :
    sample R atlas (-1) b0 b1 = some 0 := by
  have hlen : 0 < atlas.length := List.length_pos_iff.mpr hne
  obtain ⟨x, y, hx, hy, hc⟩ := cell_total (K := K) hR (b0 := 0) (b1 := 0) (by simp) (by simp)
  have hl : pyIdx atlas.length (-1) = some (atlas.length - 1) := by
    unfold pyIdx
    rw [if_neg (by omega), if_pos (by omega)]
    congr 1; omega
  have hg : atlas[atlas.length - 1]? = some (atlas[atlas.length - 1]'(by omega)) := List.getElem?_eq_getElem _
  unfold sample
  simp only
  rw [if_pos (by omega), hc, hl]
  simp only [Option.bind_some]
  rw [pyIdx_nat hy, pyIdx_nat hx]
  simp only [Option.bind_some]
  rw [hg]
  simp

/-- The exception: a lattice point inside the edge from the first to the second vertex reads the texel whose triangle is the mirror
image along the edge; this triangle does not contain the point unless it is the middle of the edge. -/
theorem atlas_seam {R i j : Nat} (hi : 0 < i) (hj : 0 < j) (hij : i + j = R) {atlas : List (Nat → Nat → K)} {p : Nat}
    {a : Nat → Nat → K} (ha : atlas[p]? = some a) {b : K × K} (h1 : b.1 * R = i) (h2 : b.2 * R = j) :
    sample R atlas p b.1 b.2 = some (a j i) ∧ (InTri R ((i : Int), (j : Int)) b ↔ i = j) := by
  have hRK : (0 : K) < R := by
    have : 0 < R := by omega
    exact_mod_cast this
  have hR0 : (R : K) ≠ 0 := hRK.ne'
  have hsR : (i : K) + j = R := by exact_mod_cast hij
  refine ⟨sample_cell ha (by omega) (by omega) (cell_seam hi hj hij h1 h2), ?_⟩
  have hd : ¬ ((i : Int) + (j : Int) < (R : Int)) := by omega
  have hb1 : b.1 = i / R := by rw [← h1]; field_simp
  have hb2 : b.2 = j / R := by rw [← h2]; field_simp
  unfold InTri corners
  simp only [if_neg hd]
  constructor
  · rintro ⟨⟨l0, l1, l2⟩, ⟨hsum, e1, e2⟩, p0, p1, p2⟩
    simp only at hsum e1 e2 p0 p1 p2
    rw [hb1] at e1
    rw [hb2] at e2
    field_simp at e1 e2
    push_cast at e1 e2
    have q1 : (i : K) = R - i - l0 := by linear_combination e1 + ((R : K) - i) * hsum
    have q2 : (j : K) = R - j - l1 := by linear_combination e2 + ((R : K) - j) * hsum
    have g1 : (i : K) ≤ j := by linarith
    have g2 : (j : K) ≤ i := by linarith
    have g1' : i ≤ j := by exact_mod_cast g1
    have g2' : j ≤ i := by exact_mod_cast g2
    omega
  · intro he
    subst he
    refine ⟨(0, 0, 1), ⟨by norm_num, ?_, ?_⟩, le_rfl, le_rfl, by norm_num⟩
    · simp only; rw [hb1, ← hsR]; push_cast; ring
    · simp only; rw [hb2, ← hsR]; push_cast; ring

/-- Coordinates of `-1/R` or less (blurred rasterization without clipping) index from the end of the row, or fail. -/
theorem atlas_negative : cell 4 (-1 / 2 : Rat) (3 / 4) = (-2, 3) ∧
    sample 4 [fun y x => (10 * y + x : Rat)] 0 (-1 / 2) (3 / 4) = some 32 ∧
    sample 4 [fun y x => (10 * y + x : Rat)] 0 (-3 / 2) (3 / 4) = none := by
  decide +kernel

/-! ### Images -/

theorem lin_reflect (g : Int → K) (n : Int) (x : K) : lin (fun i => g (n - i)) x = lin g (n - x) := by
  unfold lin
  by_cases h : x = ⌊x⌋
  · have e : (n : K) - x = ((n - ⌊x⌋ : Int) : K) := by push_cast; rw [← h]
    rw [e, Int.floor_intCast, ← h]
    push_cast; ring
  · have f1 := Int.floor_le x
    have f2 := Int.lt_floor_add_one x
    have f3 : (⌊x⌋ : K) < x := lt_of_le_of_ne f1 (fun e => h e.symm)
    have e : ⌊(n : K) - x⌋ = n - (⌊x⌋ + 1) := by
      rw [Int.floor_eq_iff]
      push_cast
      constructor <;> linarith
    rw [e]
    have e2 : n - (⌊x⌋ + 1) + 1 = n - ⌊x⌋ := by ring
    rw [e2]
    push_cast; ring

/-- Sampling the vertically flipped image, as the loader does, is sampling the image as `TexturesUV` does. -/
theorem bilinearGrid_flip (img : TexMap K) (uv : K × K) : bilinearGrid (flip img) uv = sampleUV ⟨.bilinear, true, .zeros⟩ img uv := by
  unfold bilinearGrid sampleUV gridSample
  simp only [padCoord, unnorm, if_true]
  rw [bilinear_eq, bilinear_eq]
  have ex : lerp (-1) 1 uv.1 = uv.1 * 2 - 1 := by unfold lerp; ring
  rw [ex]
  have ey : (lerp 1 (-1) uv.2 + 1) / 2 * (((img.H : Int) : K) - 1) =
      (((img.H : Int) - 1 : Int) : K) - (uv.2 * 2 - 1 + 1) / 2 * (((img.H : Int) : K) - 1) := by
    unfold lerp; push_cast; ring
  rw [ey, ← lin_reflect]
  have : ∀ i j, texel (flip img) i j = texel img ((img.H : Int) - 1 - i) j := by
    intro i j
    unfold texel flip
    by_cases h : 0 ≤ i ∧ i < (img.H : Int) ∧ 0 ≤ j ∧ j < (img.W : Int)
    · rw [if_pos h, if_pos (by omega)]
    · rw [if_neg h, if_neg (by omega)]
  simp only [this]
  rfl

/-- An atlas built from an image: a fragment reads the image (bilinear, corners aligned, as `TexturesUV` would) at the texture coordinates
of the centroid of the small triangle it is in. -/
theorem atlas_material {R : Nat} (img : TexMap K) {fs : List (FaceUV K)} {p : Nat} {f : FaceUV K} (hf : fs[p]? = some f) {b : K × K}
    {x y : Nat} (hx : x < R) (hy : y < R) (h : Inside R ((x : Int), (y : Int)) b) :
    sample R (fs.map (materialAtlas (flip img) R)) p b.1 b.2 =
      some (sampleUV ⟨.bilinear, true, .zeros⟩ img (uvPos f (centre R x y))) := by
  rw [atlas_inside (a := materialAtlas (flip img) R f) (by rw [List.getElem?_map, hf]; rfl) hx hy h]
  unfold materialAtlas
  rw [bilinearGrid_flip]

/-- How far these texture coordinates are from those of the fragment. -/
theorem uv_close {R : Nat} (f : FaceUV K) {b : K × K} {x y : Nat} (hx : x < R) (h : InTri R ((x : Int), (y : Int)) b) :
    |(uvPos f (b.1, b.2, 1 - b.1 - b.2)).1 - (uvPos f (centre R x y)).1| ≤ 2 / (3 * R) * (|f.a.1 - f.c.1| + |f.b.1 - f.c.1|) ∧
    |(uvPos f (b.1, b.2, 1 - b.1 - b.2)).2 - (uvPos f (centre R x y)).2| ≤ 2 / (3 * R) * (|f.a.2 - f.c.2| + |f.b.2 - f.c.2|) := by
  obtain ⟨h1, h2⟩ := centre_close hx h
  have hs := centre_sum (K := K) R x y
  generalize (centre R x y : K × K × K) = w at *
  have key : ∀ p q r : K, |p * b.1 + q * b.2 + r * (1 - b.1 - b.2) - (p * w.1 + q * w.2.1 + r * w.2.2)| ≤
      2 / (3 * R) * (|p - r| + |q - r|) := by
    intro p q r
    have e : p * b.1 + q * b.2 + r * (1 - b.1 - b.2) - (p * w.1 + q * w.2.1 + r * w.2.2) =
        (b.1 - w.1) * (p - r) + (b.2 - w.2.1) * (q - r) := by
      have : w.2.2 = 1 - w.1 - w.2.1 := by linarith
      rw [this]; ring
    rw [e]
    refine (abs_add_le _ _).trans ?_
    rw [abs_mul, abs_mul, mul_add]
    exact add_le_add (mul_le_mul_of_nonneg_right h1 (abs_nonneg _)) (mul_le_mul_of_nonneg_right h2 (abs_nonneg _))
  exact ⟨key _ _ _, key _ _ _⟩

/-! ### The reference interpolation -/

theorem pyTexel_in {img : TexMap K} {i j : Int} (h0 : 0 ≤ i) (h1 : i < img.H) (h2 : 0 ≤ j) (h3 : j < img.W) :
    pyTexel img i j = some (texel img i j) := by
  unfold pyTexel texel
  rw [pyIdx_of h0 h1, pyIdx_of h2 h3, if_pos ⟨h0, h1, h2, h3⟩]
  simp [Int.toNat_of_nonneg h0, Int.toNat_of_nonneg h2]

theorem pyTexel_row {img : TexMap K} {i j : Int} (h1 : (img.H : Int) ≤ i) : pyTexel img i j = none := by
  unfold pyTexel pyIdx
  rw [if_pos (by omega), if_neg (by omega)]; rfl

theorem pyTexel_col {img : TexMap K} {i j : Int} (h1 : (img.W : Int) ≤ j) : pyTexel img i j = none := by
  unfold pyTexel
  have : pyIdx img.W j = none := by
    unfold pyIdx
    rw [if_pos (by omega), if_neg (by omega)]
  rw [this]
  cases pyIdx img.H i <;> rfl

theorem pos_bounds {n : Nat} (hn : 1 ≤ n) {u : K} (h0 : 0 ≤ u) (h1 : u ≤ 1) :
    0 ≤ u * ((n : K) - 1) ∧ 0 ≤ ⌊u * ((n : K) - 1)⌋ ∧ ⌊u * ((n : K) - 1)⌋ < n ∧ (⌊u * ((n : K) - 1)⌋ + 1 < n ↔ u < 1 ∧ 2 ≤ n) := by
  have hK : (1 : K) ≤ n := by exact_mod_cast hn
  have p0 : 0 ≤ u * ((n : K) - 1) := mul_nonneg h0 (by linarith)
  have p1 : u * ((n : K) - 1) ≤ (n : K) - 1 := by nlinarith
  refine ⟨p0, Int.floor_nonneg.mpr p0, ?_, ?_⟩
  · rw [Int.floor_lt]; push_cast; linarith
  · have e : ⌊u * ((n : K) - 1)⌋ + 1 < (n : Int) ↔ ⌊u * ((n : K) - 1)⌋ < (n : Int) - 1 := by omega
    rw [e, Int.floor_lt]
    push_cast
    constructor
    · intro h
      constructor
      · by_contra hu
        have : u = 1 := le_antisymm h1 (not_lt.mp hu)
        rw [this] at h; linarith
      · by_contra hn2
        have : n = 1 := by omega
        subst this
        simp at h
    · rintro ⟨hu, hn2⟩
      have : (2 : K) ≤ n := by exact_mod_cast hn2
      nlinarith

/-- On the half-open square the vectorised reference version computes the same value. -/
theorem bilinearVec_eq {img : TexMap K} (hH : 2 ≤ img.H) (hW : 2 ≤ img.W) {uv : K × K} (h0 : 0 ≤ uv.1) (h1 : uv.1 < 1) (h2 : 0 ≤ uv.2)
    (h3 : uv.2 < 1) : bilinearVec img uv = some (bilinearGrid img uv) := by
  obtain ⟨x0, x1, x2, x3⟩ := pos_bounds (n := img.W) (by omega) h0 h1.le
  obtain ⟨y0, y1, y2, y3⟩ := pos_bounds (n := img.H) (by omega) h2 h3.le
  have x4 := x3.mpr ⟨h1, hW⟩
  have y4 := y3.mpr ⟨h3, hH⟩
  unfold bilinearVec bilinearGrid gridSample bilinear
  simp only [padCoord, unnorm, if_true]
  have ex : (uv.1 * 2 - 1 + 1) / 2 * (((img.W : Int) : K) - 1) = uv.1 * ((img.W : K) - 1) := by push_cast; ring
  have ey : (uv.2 * 2 - 1 + 1) / 2 * (((img.H : Int) : K) - 1) = uv.2 * ((img.H : K) - 1) := by push_cast; ring
  rw [ex, ey]
  generalize uv.1 * ((img.W : K) - 1) = gx at *
  generalize uv.2 * ((img.H : K) - 1) = gy at *
  rw [truncZ_nonneg x0, truncZ_nonneg y0, truncZ_nonneg (by linarith : 0 ≤ gy + 1), Int.floor_add_one,
    pyTexel_in y1 y2 x1 x2, pyTexel_in (by omega) y4 x1 x2, pyTexel_in y1 y2 (by omega) x4, pyTexel_in (by omega) y4 (by omega) x4]
  simp only [Option.bind_some, Option.map_some]
  congr 1
  ring

/-- On the closing edges of the documented range `[0, 1]`, and for images of a single row or column, it is out of range. -/
theorem bilinearVec_error {img : TexMap K} (hH : 1 ≤ img.H) (hW : 1 ≤ img.W) {uv : K × K} (h0 : 0 ≤ uv.1) (h1 : uv.1 ≤ 1) (h2 : 0 ≤ uv.2)
    (h3 : uv.2 ≤ 1) (h : uv.1 = 1 ∨ uv.2 = 1 ∨ img.H = 1 ∨ img.W = 1) : bilinearVec img uv = none := by
  obtain ⟨x0, x1, x2, x3⟩ := pos_bounds (n := img.W) hW h0 h1
  obtain ⟨y0, y1, y2, y3⟩ := pos_bounds (n := img.H) hH h2 h3
  unfold bilinearVec
  simp only
  rw [truncZ_nonneg x0, truncZ_nonneg y0, truncZ_nonneg (by linarith : 0 ≤ uv.2 * ((img.H : K) - 1) + 1), Int.floor_add_one]
  by_cases hc : ⌊uv.2 * ((img.H : K) - 1)⌋ + 1 < (img.H : Int)
  · have hx : ¬ (⌊uv.1 * ((img.W : K) - 1)⌋ + 1 < (img.W : Int)) := by
      intro hx
      obtain ⟨a, b⟩ := y3.mp hc
      obtain ⟨c, d⟩ := x3.mp hx
      rcases h with h | h | h | h
      · rw [h] at c; exact lt_irrefl _ c
      · rw [h] at a; exact lt_irrefl _ a
      · omega
      · omega
    rw [pyTexel_in y1 y2 x1 x2, pyTexel_in (by omega) hc x1 x2, pyTexel_col (by omega)]
    rfl
  · rw [pyTexel_in y1 y2 x1 x2, pyTexel_row (by omega)]
    rfl

/-! ### The atlas of a mesh -/

theorem putMask_length {α : Type} : ∀ (m : List Bool) (xs vs : List α), (putMask m xs vs).length = xs.length
  | [], xs, vs => by unfold putMask; rfl
  | true :: m, [], vs => by unfold putMask; rfl
  | true :: m, x :: xs, [] => by unfold putMask; rfl
  | true :: m, x :: xs, v :: vs => by unfold putMask; simp [putMask_length m xs vs]
  | false :: m, [], vs => by unfold putMask; rfl
  | false :: m, x :: xs, vs => by unfold putMask; simp [putMask_length m xs vs]

/-- Assigning to a masked selection values computed from the same selection of another list. -/
theorem putMask_select {α β : Type} (F : β → α) : ∀ (m : List Bool) (xs : List α) (us : List β), m.length = xs.length → us.length = xs.length →
    ∀ i : Nat, (putMask m xs ((select m us).map F))[i]? = if m[i]? = some true then (us[i]?).map F else xs[i]?
  | [], xs, us, h, _, i => by
    have : xs = [] := List.length_eq_zero_iff.mp (by simpa using h.symm)
    subst this
    simp [putMask]
  | true :: m, [], us, h, _, i => by simp at h
  | true :: m, x :: xs, [], _, h, i => by simp at h
  | true :: m, x :: xs, u :: us, h, h', i => by
    cases i with
    | zero => simp [putMask, select]
    | succ i => simpa [putMask, select] using putMask_select F m xs us (by simpa using h) (by simpa using h') i
  | false :: m, [], us, h, _, i => by simp at h
  | false :: m, x :: xs, [], _, h, i => by simp at h
  | false :: m, x :: xs, u :: us, h, h', i => by
    cases i with
    | zero => simp [putMask, select]
    | succ i => simpa [putMask, select] using putMask_select F m xs us (by simpa using h) (by simpa using h') i

theorem mask_get {names : List String} {i : Nat} {n : String} (hn : names[i]? = some n) (s : String) :
    ((names.map fun n => decide (n = s))[i]? = some true) ↔ n = s := by
  rw [List.getElem?_map, hn]; simp

theorem propStep_length (names : List String) (atlas : List (Nat → Nat → K)) (p : String × Option K) :
    (propStep names atlas p).length = atlas.length := by
  unfold propStep
  simp only
  split
  · rfl
  · rw [putMask_length]

theorem propStep_get {names : List String} {atlas : List (Nat → Nat → K)} (hl : names.length = atlas.length) {i : Nat} {n : String}
    (hn : names[i]? = some n) (p : String × Option K) {d : K} (hd : atlas[i]? = some fun _ _ => d) :
    (propStep names atlas p)[i]? = some fun _ _ => (if n = p.1 then p.2.getD d else d) := by
  obtain ⟨s, o⟩ := p
  unfold propStep
  cases o with
  | none => simpa using hd
  | some c =>
    simp only
    rw [putMask_select _ _ _ _ (by simpa using hl) rfl]
    by_cases h : n = s
    · rw [if_pos ((mask_get hn s).mpr h), hd]; simp [h]
    · rw [if_neg (fun e => h ((mask_get hn s).mp e)), hd]; simp [h]

/-- The base colour of a face with material `n`: the diffuse colour of that material when it is listed with one, otherwise white. -/
def BaseColour (props : List (String × Option K)) (n : String) (d : K) : Prop :=
  (∀ c, (n, some c) ∈ props → d = c) ∧ ((∀ c, (n, some c) ∉ props) → d = 1)

theorem props_get {names : List String} {i : Nat} {n : String} (hn : names[i]? = some n) :
    ∀ (props : List (String × Option K)) (atlas : List (Nat → Nat → K)), names.length = atlas.length → (props.map Prod.fst).Nodup →
      ∀ d : K, (atlas[i]? = some fun _ _ => d) → ∃ d' : K, ((props.foldl (propStep names) atlas)[i]? = some fun _ _ => d') ∧
        (∀ c, (n, some c) ∈ props → d' = c) ∧ ((∀ c, (n, some c) ∉ props) → d' = d)
  | [], atlas, _, _, d, hd => ⟨d, hd, by simp, fun _ => rfl⟩
  | p :: ps, atlas, hl, hnd, d, hd => by
    rw [List.map_cons, List.nodup_cons] at hnd
    have hg := propStep_get hl hn p hd
    obtain ⟨d', h1, h2, h3⟩ := props_get hn ps (propStep names atlas p) (by rw [propStep_length]; exact hl) hnd.2 _ hg
    refine ⟨d', h1, ?_, ?_⟩
    · intro c hc
      rcases List.mem_cons.mp hc with h | h
      · subst h
        have : ∀ c', (n, some c') ∉ ps := fun c' hm => hnd.1 (List.mem_map.mpr ⟨_, hm, rfl⟩)
        rw [h3 this]; simp
      · exact h2 c h
    · intro hc
      rw [h3 fun c hm => hc c (List.mem_cons_of_mem _ hm)]
      obtain ⟨s, o⟩ := p
      cases o with
      | none => simp
      | some c =>
        have : n ≠ s := by
          rintro rfl
          exact hc c List.mem_cons_self
        simp [this]

theorem imageStep_length (names : List String) (R : Nat) (fs : List (FaceUV K)) (atlas : List (Nat → Nat → K)) (p : String × TexMap K) :
    (imageStep names R fs atlas p).length = atlas.length := by
  unfold imageStep
  rw [putMask_length]

theorem images_get {names : List String} {i : Nat} {n : String} (hn : names[i]? = some n) (R : Nat) {fs : List (FaceUV K)} {f : FaceUV K}
    (hf : fs[i]? = some f) :
    ∀ (images : List (String × TexMap K)) (atlas : List (Nat → Nat → K)), names.length = atlas.length → fs.length = atlas.length →
      (images.map Prod.fst).Nodup →
      (∀ img, (n, img) ∈ images → (images.foldl (imageStep names R fs) atlas)[i]? = some (materialAtlas (flip img) R f)) ∧
      ((∀ img, (n, img) ∉ images) → (images.foldl (imageStep names R fs) atlas)[i]? = atlas[i]?)
  | [], atlas, _, _, _ => ⟨by simp, fun _ => rfl⟩
  | p :: ps, atlas, hl, hl', hnd => by
    rw [List.map_cons, List.nodup_cons] at hnd
    obtain ⟨h1, h2⟩ := images_get hn R hf ps (imageStep names R fs atlas p) (by rw [imageStep_length]; exact hl)
      (by rw [imageStep_length]; exact hl') hnd.2
    have hs : (imageStep names R fs atlas p)[i]? = if n = p.1 then some (materialAtlas (flip p.2) R f) else atlas[i]? := by
      unfold imageStep
      simp only
      rw [putMask_select _ _ _ _ (by simpa using hl) hl']
      by_cases h : n = p.1
      · rw [if_pos ((mask_get hn _).mpr h), if_pos h, hf]; rfl
      · rw [if_neg (fun e => h ((mask_get hn _).mp e)), if_neg h]
    refine ⟨?_, ?_⟩
    · intro img hm
      rcases List.mem_cons.mp hm with h | h
      · subst h
        have : ∀ img', (n, img') ∉ ps := fun c' hm => hnd.1 (List.mem_map.mpr ⟨_, hm, rfl⟩)
        rw [List.foldl_cons, h2 this, hs]; simp
      · exact h1 img h
    · intro hm
      rw [List.foldl_cons, h2 fun img h => hm img (List.mem_cons_of_mem _ h), hs, if_neg]
      rintro rfl
      exact hm p.2 List.mem_cons_self

theorem props_length (names : List String) : ∀ (props : List (String × Option K)) (atlas : List (Nat → Nat → K)),
    (props.foldl (propStep names) atlas).length = atlas.length
  | [], _ => rfl
  | p :: ps, atlas => by rw [List.foldl_cons, props_length names ps, propStep_length]

theorem images_length (names : List String) (R : Nat) (fs : List (FaceUV K)) : ∀ (images : List (String × TexMap K))
    (atlas : List (Nat → Nat → K)), (images.foldl (imageStep names R fs) atlas).length = atlas.length
  | [], _ => rfl
  | p :: ps, atlas => by rw [List.foldl_cons, images_length names R fs ps, imageStep_length]

theorem mapM_get {α β : Type} (g : α → Option β) : ∀ (l : List α) (r : List β), l.mapM g = some r → r.length = l.length ∧
    ∀ (i : Nat) (x : α), l[i]? = some x → ∃ y, g x = some y ∧ r[i]? = some y
  | [], r, h => by
    simp at h; subst h; simp
  | a :: l, r, h => by
    rw [List.mapM_cons] at h
    cases hg : g a with
    | none => rw [hg] at h; simp at h
    | some y =>
      cases hm : l.mapM g with
      | none => rw [hg, hm] at h; simp at h
      | some r' =>
        rw [hg, hm] at h
        simp at h
        subst h
        obtain ⟨h1, h2⟩ := mapM_get g l r' hm
        refine ⟨by simp [h1], ?_⟩
        intro i x hx
        cases i with
        | zero => simp at hx; subst hx; exact ⟨y, hg, rfl⟩
        | succ i => simpa using h2 i x (by simpa using hx)

theorem wrapUVs_length (w : Wrap) (fs : List (FaceUV K)) : (wrapUVs w fs).length = fs.length := by
  unfold wrapUVs
  cases w <;> simp only
  · split <;> simp
  · simp

/-- The atlas of a mesh with texture coordinates: a face whose material has an image shows the image at its (wrapped) coordinates;
another face is uniform, in its diffuse colour or white.  Other faces and materials, and the order of the dictionaries, play no part. -/
theorem meshAtlas_get {props : List (String × Option K)} {images : List (String × TexMap K)} {names : List String}
    {faces : List (Int × Int × Int)} {verts : List (K × K)} {R : Nat} {w : Wrap} {atlas : List (Nat → Nat → K)}
    (h : meshAtlas props images names faces verts R w = some atlas) (hv : verts ≠ []) (hne : props ≠ [] ∨ images ≠ [])
    (hl : names.length = faces.length) (hp : (props.map Prod.fst).Nodup) (hi : (images.map Prod.fst).Nodup)
    {fs : List (FaceUV K)} (hfs : faces.mapM (faceUV verts) = some fs) {i : Nat} {n : String} (hn : names[i]? = some n) :
    ∃ f, (wrapUVs w fs)[i]? = some f ∧
      (∀ img, (n, img) ∈ images → ∃ a, atlas[i]? = some a ∧ ∀ y x, a y x = sampleUV ⟨.bilinear, true, .zeros⟩ img (uvPos f (centre R x y))) ∧
      ((∀ img, (n, img) ∉ images) → ∃ d, BaseColour props n d ∧ atlas[i]? = some fun _ _ => d) := by
  have hilt : i < names.length := (List.getElem?_eq_some_iff.mp hn).1
  obtain ⟨hfl, _⟩ := mapM_get _ _ _ hfs
  have hwl : (wrapUVs w fs).length = faces.length := by rw [wrapUVs_length, hfl]
  have hf : (wrapUVs w fs)[i]? = some ((wrapUVs w fs)[i]'(by omega)) := List.getElem?_eq_getElem _
  refine ⟨_, hf, ?_⟩
  unfold meshAtlas at h
  simp only at h
  rw [if_neg (by rintro ⟨a, b⟩; rcases hne with c | c <;> contradiction), if_neg hv, hfs] at h
  simp only [Option.map_some, Option.some.injEq] at h
  have hwhite : (faces.map fun _ => fun (_ _ : Nat) => (1 : K))[i]? = some fun _ _ => 1 := by
    rw [List.getElem?_map, List.getElem?_eq_getElem (by omega)]; rfl
  obtain ⟨d, hd, hd1, hd2⟩ := props_get hn props _ (by simpa using hl) hp 1 hwhite
  obtain ⟨g1, g2⟩ := images_get hn R hf images (props.foldl (propStep names) (faces.map fun _ => fun _ _ => 1))
    (by rw [props_length]; simpa using hl) (by rw [props_length]; simpa using hwl) hi
  rw [h] at g1 g2
  constructor
  · intro img hm
    refine ⟨_, g1 img hm, ?_⟩
    intro y x
    unfold materialAtlas
    rw [bilinearGrid_flip]
  · intro hm
    exact ⟨d, ⟨hd1, hd2⟩, by rw [g2 hm, hd]⟩

/-! ### Wrapping of texture coordinates -/

/-- All coordinates of the face are in one period. -/
def OnePeriod (f : FaceUV K) (k l : Int) : Prop :=
  ∀ p ∈ [f.a, f.b, f.c], (k : K) ≤ p.1 ∧ p.1 < k + 1 ∧ (l : K) ≤ p.2 ∧ p.2 < l + 1

/-- `"repeat"` shows a face lying in one period of the repeated image at coordinates shifted by whole periods. -/
theorem repeat_shift {fs : List (FaceUV K)} {i : Nat} {f : FaceUV K} (hf : fs[i]? = some f) {k l : Int} (h : OnePeriod f k l) :
    ∃ f', (wrapUVs .repeat fs)[i]? = some f' ∧ ∃ k' l' : Int, ∀ w : K × K × K, w.1 + w.2.1 + w.2.2 = 1 →
      uvPos f' w = ((uvPos f w).1 - k', (uvPos f w).2 - l') := by
  unfold wrapUVs
  simp only
  split
  · refine ⟨mapUV (fun u => u - ⌊u⌋) f, by rw [List.getElem?_map, hf]; rfl, k, l, ?_⟩
    intro w hw
    have fl : ∀ (m : Int) (u : K), (m : K) ≤ u → u < m + 1 → ⌊u⌋ = m := fun m u h0 h1 => Int.floor_eq_iff.mpr ⟨h0, h1⟩
    obtain ⟨a1, a2, a3, a4⟩ := h f.a (by simp)
    obtain ⟨b1, b2, b3, b4⟩ := h f.b (by simp)
    obtain ⟨c1, c2, c3, c4⟩ := h f.c (by simp)
    unfold uvPos mapUV
    simp only [fl k _ a1 a2, fl l _ a3 a4, fl k _ b1 b2, fl l _ b3 b4, fl k _ c1 c2, fl l _ c3 c4]
    rw [Prod.mk.injEq]
    constructor
    · linear_combination (-(k : K)) * hw
    · linear_combination (-(l : K)) * hw
  · refine ⟨f, hf, 0, 0, ?_⟩
    intro w _
    simp

/-- A face that crosses a period is not shown on the repeated image: the middle of `u = 9/10 … 11/10` is shown at `u = 1/2`. -/
theorem repeat_crossing : (wrapUVs .repeat [(⟨(9 / 10, 0), (11 / 10, 0), (9 / 10, 1 / 2)⟩ : FaceUV Rat)]).map
      (fun f => (uvPos f (1 / 2, 1 / 2, 0)).1) = [1 / 2] ∧
    ((uvPos (⟨(9 / 10, 0), (11 / 10, 0), (9 / 10, 1 / 2)⟩ : FaceUV Rat) (1 / 2, 1 / 2, 0)).1 = 1) := by
  decide +kernel

/-- Whether the coordinate `1` becomes `0` depends on the other faces of the mesh. -/
theorem repeat_depends : (wrapUVs .repeat [(⟨(0, 0), (1, 0), (0, 1)⟩ : FaceUV Rat)]).map (fun f => f.b.1) = [1] ∧
    (wrapUVs .repeat [(⟨(0, 0), (1, 0), (0, 1)⟩ : FaceUV Rat), ⟨(0, 0), (2, 0), (0, 1)⟩]).map (fun f => f.b.1) = [0, 0] := by
  decide +kernel

/-! ### Examples -/

/-- One atlas of resolution 3 numbered row by row. -/
def exAtlas : List (Nat → Nat → Rat) := [fun y x => 3 * y + x]

example : Inside 3 (2, 2) ((2 / 9, 2 / 9) : Rat × Rat) := by
  have := centre_inside (K := Rat) (R := 3) (x := 2) (y := 2) (by omega)
  have e : ((centre 3 2 2 : Rat × Rat × Rat).1, (centre 3 2 2 : Rat × Rat × Rat).2.1) = (2 / 9, 2 / 9) := by decide +kernel
  rw [e] at this
  exact this

example : sample 3 exAtlas 0 (2 / 9) (2 / 9) = some 8 ∧ sample 3 exAtlas 0 (1 / 9) (1 / 9) = some 0 ∧
    sample 3 exAtlas 0 (1 / 9) (4 / 9) = some 3 ∧ sample 3 exAtlas 0 (2 / 9) (5 / 9) = some 5 ∧ sample 3 exAtlas 0 1 0 = some 2 ∧
    sample 3 exAtlas (-1) (1 / 2) 7 = some 0 := by decide +kernel

example : Bary ((1 / 4, 1 / 2) : Rat × Rat) ∧ ¬ OnSeam 3 ((1 / 4, 1 / 2) : Rat × Rat) := by
  refine ⟨by unfold Bary; norm_num, ?_⟩
  rintro ⟨i, j, _, _, hij, h1, h2⟩
  have : ((i : Rat) + j) = 3 := by exact_mod_cast hij
  norm_num at h1 h2
  linarith

/-- On the seam: the point one third along the edge reads texel 7 (around two thirds), not 4 or 6 around it. -/
example : sample 3 exAtlas 0 (1 / 3) (2 / 3) = some 7 ∧ sample 3 exAtlas 0 (1 / 3 + 1 / 100) (2 / 3 - 1 / 100) = some 4 ∧
    sample 3 exAtlas 0 (1 / 3 - 1 / 100) (2 / 3 + 1 / 100) = some 6 := by decide +kernel

/-- A 2 × 2 image with the values 0 1 / 2 3. -/
def exImg : TexMap Rat := ⟨2, 2, fun i j => 2 * i + j⟩

example : ((meshAtlas [("a", some (1 / 2)), ("b", none), ("c", some (1 / 4))] [("b", exImg)] ["b", "a", "", "c"]
    [(0, 1, 2), (0, 1, 2), (0, 1, 2), (2, 1, -1)] [(0, 0), (1, 0), (0, 1)] 2 .repeat).map fun l => l.map fun a => [a 0 0, a 0 1, a 1 0, a 1 1]) =
    some [[5 / 6, 11 / 6, 7 / 3, 5 / 3], [1 / 2, 1 / 2, 1 / 2, 1 / 2], [1, 1, 1, 1], [1 / 4, 1 / 4, 1 / 4, 1 / 4]] := by decide +kernel

example : bilinearVec exImg (1 / 2, 1 / 4) = some (bilinearGrid exImg (1 / 2, 1 / 4)) ∧ bilinearVec exImg (1, 0) = none := by decide +kernel

end P3D.Atlas
