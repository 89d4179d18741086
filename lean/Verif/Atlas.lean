/-
Per-face texture atlases: `TexturesAtlas.sample_textures` and `faces_verts_textures_packed`
(`renderer/mesh/textures.py:565-661`), and their construction from images, `make_mesh_texture_atlas` and
`make_material_atlas` (`io/mtl_io.py:24-300`), with the two bilinear interpolations (`io/mtl_io.py:303-403`).

One channel; numbers are an ordered field with floor (no rounding, no NaN).  `none` is an IndexError.
-/
import Verif.UvSample
import Verif.Clip

set_option linter.unusedSectionVars false
set_option linter.unusedSimpArgs false

namespace P3D.Atlas

open P3D.Uv

variable {K : Type} [Field K] [LinearOrder K] [IsStrictOrderedRing K] [FloorRing K]

/-! ### Model -/

/-- `.to(torch.int64)`: towards zero. -/
def truncZ (x : K) : Int := if 0 ≤ x then ⌊x⌋ else ⌈x⌉

/-- textures.py:607-615, the cell `(w_x, w_y)` for the first two barycentric coordinates. -/
def cell (R : Nat) (b0 b1 : K) : Int × Int :=
  let wx := min (truncZ (b0 * R)) ((R : Int) - 1)
  let wy := min (truncZ (b1 * R)) ((R : Int) - 1)
  if (b0 + b1) * R - ((wx : K) + wy) ≤ 1 then (wx, wy) else ((R : Int) - 1 - wx, (R : Int) - 1 - wy)

/-- Python index of an axis of size `n`. -/
def pyIdx (n : Nat) (i : Int) : Option Nat :=
  if 0 ≤ i then (if i < n then some i.toNat else none) else if 0 ≤ n + i then some (n + i).toNat else none

/-- textures.py:595-619 `TexturesAtlas.sample_textures`, one fragment: `p` is its entry of `pix_to_face`, `(b0, b1)` the first two
barycentric coordinates.  The atlas of a face is a function of row and column. -/
def sample (R : Nat) (atlas : List (Nat → Nat → K)) (p : Int) (b0 b1 : K) : Option K :=
  let c := if p < 0 then cell R (0 : K) 0 else cell R b0 b1
  (pyIdx atlas.length p).bind fun f => (pyIdx R c.2).bind fun y => (pyIdx R c.1).bind fun x =>
    (atlas[f]?).map fun a => a y x * (if 0 ≤ p then 1 else 0)

/-- textures.py:646-661 `faces_verts_textures_packed`, one face. -/
def faceVerts (R : Nat) (a : Nat → Nat → K) : Option (K × K × K) :=
  (pyIdx R (-1)).bind fun l => (pyIdx R 0).map fun z => (a z l, a l z, a z z)

/-- mtl_io.py:276-293: the barycentric coordinates of the cell in column `x`, row `y`. -/
def centre (R x y : Nat) : K × K × K :=
  let w0 : K := if x + y < R then ((x : K) + 1 / 3) / R else ((R : K) - 1 - x + 2 / 3) / R
  let w1 : K := if x + y < R then ((y : K) + 1 / 3) / R else ((R : K) - 1 - y + 2 / 3) / R
  (w0, w1, 1 - (w0 + w1))

/-- The texture coordinates of the three vertices of a face. -/
structure FaceUV (K : Type) where
  a : K × K
  b : K × K
  c : K × K

/-- mtl_io.py:298. -/
def uvPos (f : FaceUV K) (w : K × K × K) : K × K :=
  (f.a.1 * w.1 + f.b.1 * w.2.1 + f.c.1 * w.2.2, f.a.2 * w.1 + f.b.2 * w.2.1 + f.c.2 * w.2.2)

/-- mtl_io.py:366-403 `_bilinear_interpolation_grid_sample`. -/
def bilinearGrid (img : TexMap K) (uv : K × K) : K := gridSample ⟨.bilinear, true, .zeros⟩ img (uv.1 * 2 - 1) (uv.2 * 2 - 1)

/-- A texel of an image read by Python indexing. -/
def pyTexel (img : TexMap K) (i j : Int) : Option K :=
  (pyIdx img.H i).bind fun r => (pyIdx img.W j).map fun c => img.val r c

/-- mtl_io.py:303-363 `_bilinear_interpolation_vectorized`. -/
def bilinearVec (img : TexMap K) (uv : K × K) : Option K :=
  let gx := uv.1 * ((img.W : K) - 1)
  let gy := uv.2 * ((img.H : K) - 1)
  let wx1 := gx - truncZ gx
  let wy1 := gy - truncZ gy
  let wx0 := 1 - wx1
  let wy0 := 1 - wy1
  let y0 := truncZ gy
  let y1 := truncZ (gy + 1)
  let x0 := truncZ gx
  let x1 := x0 + 1
  (pyTexel img y0 x0).bind fun a => (pyTexel img y1 x0).bind fun b => (pyTexel img y0 x1).bind fun c => (pyTexel img y1 x1).map fun d =>
    a * (wx0 * wy0) + b * (wx0 * wy1) + c * (wx1 * wy0) + d * (wx1 * wy1)

/-- mtl_io.py:140-300 `make_material_atlas`, one face. -/
def materialAtlas (img : TexMap K) (R : Nat) (f : FaceUV K) : Nat → Nat → K := fun y x => bilinearGrid img (uvPos f (centre R x y))

/-- mtl_io.py:119 `torch.flip(image, [0])`. -/
def flip (img : TexMap K) : TexMap K := ⟨img.H, img.W, fun i j => img.val ((img.H : Int) - 1 - i) j⟩

/-- `texture_wrap`. -/
inductive Wrap | repeat | clamp | nothing
  deriving DecidableEq

def mapUV (g : K → K) (f : FaceUV K) : FaceUV K := ⟨(g f.a.1, g f.a.2), (g f.b.1, g f.b.2), (g f.c.1, g f.c.2)⟩

/-- Whether some coordinate of the face is outside `[0, 1]`. -/
def outside (f : FaceUV K) : Bool :=
  [f.a.1, f.a.2, f.b.1, f.b.2, f.c.1, f.c.2].any fun u => decide (1 < u) || decide (u < 0)

/-- mtl_io.py:96-111. -/
def wrapUVs (w : Wrap) (fs : List (FaceUV K)) : List (FaceUV K) :=
  match w with
  | .repeat => if fs.any outside then fs.map (mapUV fun u => u - ⌊u⌋) else fs
  | .clamp => fs.map (mapUV fun u => min 1 (max u 0))
  | .nothing => fs

/-- `x[mask]`. -/
def select {α : Type} : List Bool → List α → List α
  | true :: m, x :: xs => x :: select m xs
  | false :: m, _ :: xs => select m xs
  | _, _ => []

/-- `x[mask] = v`. -/
def putMask {α : Type} : List Bool → List α → List α → List α
  | true :: m, _ :: xs, v :: vs => v :: putMask m xs vs
  | false :: m, x :: xs, vs => x :: putMask m xs vs
  | _, xs, _ => xs

/-- mtl_io.py:73-84, one turn of the loop over `material_properties`: name and diffuse colour, if there is one. -/
def propStep (names : List String) (atlas : List (Nat → Nat → K)) (p : String × Option K) : List (Nat → Nat → K) :=
  let mask := names.map fun n => decide (n = p.1)
  match p.2 with
  | none => atlas
  | some d => putMask mask atlas ((select mask atlas).map fun _ => fun _ _ => d)

/-- mtl_io.py:116-135, one turn of the loop over `texture_images`. -/
def imageStep (names : List String) (R : Nat) (fs : List (FaceUV K)) (atlas : List (Nat → Nat → K)) (p : String × TexMap K) :
    List (Nat → Nat → K) :=
  let img := flip p.2
  let mask := names.map fun n => decide (n = p.1)
  putMask mask atlas ((select mask fs).map (materialAtlas img R))

/-- `verts_uvs[faces_uvs]`, one face. -/
def faceUV (verts : List (K × K)) (f : Int × Int × Int) : Option (FaceUV K) :=
  (P3D.Clip.pyGet verts f.1).bind fun a => (P3D.Clip.pyGet verts f.2.1).bind fun b => (P3D.Clip.pyGet verts f.2.2).map fun c => ⟨a, b, c⟩

/-- mtl_io.py:24-137 `make_mesh_texture_atlas`. -/
def meshAtlas (props : List (String × Option K)) (images : List (String × TexMap K)) (names : List String)
    (faces : List (Int × Int × Int)) (verts : List (K × K)) (R : Nat) (w : Wrap) : Option (List (Nat → Nat → K)) :=
  let white : List (Nat → Nat → K) := faces.map fun _ => fun _ _ => 1
  if props = [] ∧ images = [] then some white
  else
    let base := props.foldl (propStep names) white
    if verts = [] then some base
    else (faces.mapM (faceUV verts)).map fun fs => images.foldl (imageStep names R (wrapUVs w fs)) base

/-! ### Specification -/

/-- A point of the plane is the convex combination of three others with the given weights. -/
def Comb (p q r x : K × K) (l : K × K × K) : Prop :=
  l.1 + l.2.1 + l.2.2 = 1 ∧ x.1 = l.1 * p.1 + l.2.1 * q.1 + l.2.2 * r.1 ∧ x.2 = l.1 * p.2 + l.2.1 * q.2 + l.2.2 * r.2

/-- The corners of the small triangle of cell `(x, y)` according to the documentation (mtl_io.py:225-250): the triangle is cut into
`R²` triangles, those with the orientation of the whole are numbered by `x + y < R`, the others by `x + y ≥ R` through
`(R - 1 - x, R - 1 - y)`.  (The first drawing, mtl_io.py:165-176, exchanges 5 and 7.) -/
def corners (R : Nat) (x y : Int) : (K × K) × (K × K) × (K × K) :=
  if x + y < R then ((((x : K) + 1) / R, (y : K) / R), ((x : K) / R, ((y : K) + 1) / R), ((x : K) / R, (y : K) / R))
  else ((((R : K) - 1 - x) / R, ((R : K) - y) / R), (((R : K) - x) / R, ((R : K) - 1 - y) / R), (((R : K) - x) / R, ((R : K) - y) / R))

/-- `b` is in the closed small triangle. -/
def InTri (R : Nat) (c : Int × Int) (b : K × K) : Prop :=
  let t : (K × K) × (K × K) × (K × K) := corners R c.1 c.2
  ∃ l : K × K × K, Comb t.1 t.2.1 t.2.2 b l ∧ 0 ≤ l.1 ∧ 0 ≤ l.2.1 ∧ 0 ≤ l.2.2

/-- `b` is in the open small triangle. -/
def Inside (R : Nat) (c : Int × Int) (b : K × K) : Prop :=
  let t : (K × K) × (K × K) × (K × K) := corners R c.1 c.2
  ∃ l : K × K × K, Comb t.1 t.2.1 t.2.2 b l ∧ 0 < l.1 ∧ 0 < l.2.1 ∧ 0 < l.2.2

/-- The whole triangle of barycentric coordinates. -/
def Bary (b : K × K) : Prop := 0 ≤ b.1 ∧ 0 ≤ b.2 ∧ b.1 + b.2 ≤ 1

/-- A lattice point inside the edge from the first vertex to the second. -/
def OnSeam (R : Nat) (b : K × K) : Prop := ∃ i j : Nat, 0 < i ∧ 0 < j ∧ i + j = R ∧ b.1 * R = i ∧ b.2 * R = j

/-! ### Cells -/

theorem truncZ_nonneg {x : K} (h : 0 ≤ x) : truncZ x = ⌊x⌋ := if_pos h

/-- The truncated and clamped index of a coordinate in `[0, 1]`. -/
theorem index_bounds {R : Nat} (hR : 1 ≤ R) {b : K} (h0 : 0 ≤ b) (h1 : b ≤ 1) :
    0 ≤ min (truncZ (b * R)) ((R : Int) - 1) ∧ min (truncZ (b * R)) ((R : Int) - 1) < R ∧
      ((min (truncZ (b * R)) ((R : Int) - 1) : Int) : K) ≤ b * R ∧ b * R ≤ ((min (truncZ (b * R)) ((R : Int) - 1) : Int) : K) + 1 ∧
      ((min (truncZ (b * R)) ((R : Int) - 1) : Int) + 1 = b * R → min (truncZ (b * R)) ((R : Int) - 1) = (R : Int) - 1) := by
  have hRK : (1 : K) ≤ R := by exact_mod_cast hR
  have hx : 0 ≤ b * R := by positivity
  have hx1 : b * R ≤ R := by nlinarith
  rw [truncZ_nonneg hx]
  have f0 : 0 ≤ ⌊b * (R : K)⌋ := Int.floor_nonneg.mpr hx
  have f1 := Int.floor_le (b * (R : K))
  have f2 := Int.lt_floor_add_one (b * (R : K))
  rcases le_or_gt ⌊b * (R : K)⌋ ((R : Int) - 1) with h | h
  · rw [min_eq_left h]
    refine ⟨f0, by omega, f1, f2.le, ?_⟩
    intro he
    rw [he] at f2
    exact absurd f2 (lt_irrefl _)
  · rw [min_eq_right h.le]
    have hf : (R : Int) ≤ ⌊b * (R : K)⌋ := by omega
    have hf' : (R : K) ≤ b * R := by
      have : ((R : Int) : K) ≤ (⌊b * (R : K)⌋ : K) := by exact_mod_cast hf
      push_cast at this
      exact this.trans f1
    have he : b * R = R := le_antisymm hx1 hf'
    refine ⟨by omega, by omega, ?_, ?_, fun _ => rfl⟩
    · push_cast; rw [he]; linarith
    · push_cast; rw [he]; linarith

theorem cell_range {R : Nat} (hR : 1 ≤ R) {b : K × K} (hb : Bary b) :
    0 ≤ (cell R b.1 b.2).1 ∧ (cell R b.1 b.2).1 < R ∧ 0 ≤ (cell R b.1 b.2).2 ∧ (cell R b.1 b.2).2 < R := by
  obtain ⟨h0, h1, h2⟩ := hb
  obtain ⟨a1, a2, _⟩ := index_bounds hR h0 (by linarith)
  obtain ⟨c1, c2, _⟩ := index_bounds hR h1 (by linarith)
  unfold cell
  simp only
  split
  · exact ⟨a1, a2, c1, c2⟩
  · refine ⟨?_, ?_, ?_, ?_⟩ <;> simp only <;> omega

/-- The texel read for a point lies in the small triangle of that texel, except at the lattice points inside one edge. -/
theorem cell_mem {R : Nat} (hR : 1 ≤ R) {b : K × K} (hb : Bary b) (hs : ¬ OnSeam R b) : InTri R (cell R b.1 b.2) b := by
  have hRK : (1 : K) ≤ R := by exact_mod_cast hR
  have hR0 : (R : K) ≠ 0 := by positivity
  obtain ⟨h0, h1, h2⟩ := hb
  obtain ⟨a1, a2, a3, a4, a5⟩ := index_bounds hR h0 (by linarith)
  obtain ⟨c1, c2, c3, c4, c5⟩ := index_bounds hR h1 (by linarith)
  have hsum : b.1 * R + b.2 * R ≤ R := by nlinarith
  have hX : b.1 = b.1 * R / R := by field_simp
  have hY : b.2 = b.2 * R / R := by field_simp
  unfold cell
  simp only
  generalize hwx : min (truncZ (b.1 * R)) ((R : Int) - 1) = wx at *
  generalize hwy : min (truncZ (b.2 * R)) ((R : Int) - 1) = wy at *
  have e : (b.1 + b.2) * (R : K) = b.1 * R + b.2 * R := by ring
  rw [e]
  unfold OnSeam at hs
  generalize hXX : b.1 * (R : K) = X at *
  generalize hYY : b.2 * (R : K) = Y at *
  split
  · rename_i hd
    have hlt : wx + wy < (R : Int) := by
      by_contra hge
      push Not at hge
      have hge' : (R : K) ≤ (wx : K) + wy := by exact_mod_cast hge
      have ex : X = wx := by linarith
      have ey : Y = wy := by linarith
      have es : (wx : K) + wy = R := by linarith
      have es' : wx + wy = (R : Int) := by exact_mod_cast es
      apply hs
      refine ⟨wx.toNat, wy.toNat, by omega, by omega, by omega, ?_, ?_⟩
      · rw [ex]
        have : ((wx.toNat : Int) : K) = (wx : K) := by rw [Int.toNat_of_nonneg a1]
        exact_mod_cast this.symm
      · rw [ey]
        have : ((wy.toNat : Int) : K) = (wy : K) := by rw [Int.toNat_of_nonneg c1]
        exact_mod_cast this.symm
    unfold InTri corners
    simp only
    rw [if_pos hlt]
    refine ⟨(X - wx, Y - wy, 1 - (X - wx) - (Y - wy)), ⟨by ring, ?_, ?_⟩, by simp only; linarith, by simp only; linarith, by simp only; linarith⟩
    · rw [hX]; field_simp; ring
    · rw [hY]; field_simp; ring
  · rename_i hd
    push Not at hd
    have hlt : ¬ ((R : Int) - 1 - wx + ((R : Int) - 1 - wy) < (R : Int)) := by
      intro hlt
      have h3 : (R : Int) - 1 ≤ wx + wy := by omega
      have h4 : (R : K) - 1 ≤ (wx : K) + wy := by exact_mod_cast h3
      linarith
    unfold InTri corners
    simp only
    rw [if_neg hlt]
    refine ⟨(1 - (X - wx), 1 - (Y - wy), (X - wx) + (Y - wy) - 1), ⟨by ring, ?_, ?_⟩, by simp only; linarith, by simp only; linarith,
      by simp only; linarith⟩
    · rw [hX]; push_cast; field_simp; ring
    · rw [hY]; push_cast; field_simp; ring

/-- A point inside the small triangle of a cell reads that cell. -/
theorem cell_inside {R : Nat} {x y : Nat} (hx : x < R) (hy : y < R) {b : K × K} (h : Inside R ((x : Int), (y : Int)) b) :
    cell R b.1 b.2 = ((x : Int), (y : Int)) := by
  have hR : 1 ≤ R := by omega
  have hRK : (1 : K) ≤ R := by exact_mod_cast hR
  have hR0 : (R : K) ≠ 0 := by positivity
  have hxR : (x : K) + 1 ≤ R := by exact_mod_cast hx
  have hyR : (y : K) + 1 ≤ R := by exact_mod_cast hy
  have hx0 : (0 : K) ≤ x := by positivity
  have hy0 : (0 : K) ≤ y := by positivity
  obtain ⟨⟨l0, l1, l2⟩, ⟨hsum, e1, e2⟩, p0, p1, p2⟩ := h
  simp only at hsum e1 e2 p0 p1 p2
  have key : ∀ (w : Nat) (X : K), (w : K) < X → X < (w : K) + 1 → w < R → min (truncZ X) ((R : Int) - 1) = w := by
    intro w X h1 h2 h3
    have hw0 : (0 : K) ≤ w := by positivity
    rw [truncZ_nonneg (by linarith)]
    have : ⌊X⌋ = (w : Int) := by
      rw [Int.floor_eq_iff]; push_cast; exact ⟨h1.le, h2⟩
    rw [this]; omega
  unfold corners at e1 e2
  by_cases hd : (x : Int) + (y : Int) < (R : Int)
  · rw [if_pos hd] at e1 e2
    simp only at e1 e2
    have X1 : b.1 * R = x + l0 := by
      rw [e1]; push_cast; field_simp; linear_combination (x : K) * hsum
    have Y1 : b.2 * R = y + l1 := by
      rw [e2]; push_cast; field_simp; linear_combination (y : K) * hsum
    have kx := key x (b.1 * R) (by linarith) (by linarith) hx
    have ky := key y (b.2 * R) (by linarith) (by linarith) hy
    unfold cell
    simp only
    rw [kx, ky, if_pos]
    rw [add_mul, X1, Y1]; push_cast; linarith
  · rw [if_neg hd] at e1 e2
    simp only at e1 e2
    have X1 : b.1 * R = ((R - 1 - x : Nat) : K) + (l1 + l2) := by
      rw [Nat.cast_sub (by omega), Nat.cast_sub (by omega), e1]; push_cast; field_simp; linear_combination ((R : K) - 1 - x) * hsum
    have Y1 : b.2 * R = ((R - 1 - y : Nat) : K) + (l0 + l2) := by
      rw [Nat.cast_sub (by omega), Nat.cast_sub (by omega), e2]; push_cast; field_simp; linear_combination ((R : K) - 1 - y) * hsum
    have kx := key (R - 1 - x) (b.1 * R) (by linarith) (by linarith) (by omega)
    have ky := key (R - 1 - y) (b.2 * R) (by linarith) (by linarith) (by omega)
    unfold cell
    simp only
    rw [kx, ky, if_neg]
    · rw [Prod.mk.injEq]; constructor <;> omega
    · rw [add_mul, X1, Y1]; push_cast; push Not; linarith

/-- The centre used to build the atlas is the centroid of the small triangle, inside it. -/
theorem centre_centroid {R : Nat} {x y : Nat} (hx : x < R) :
    let t : (K × K) × (K × K) × (K × K) := corners R x y
    Comb t.1 t.2.1 t.2.2 ((centre R x y : K × K × K).1, (centre R x y : K × K × K).2.1) (1 / 3, 1 / 3, 1 / 3) := by
  have hR : 1 ≤ R := by omega
  have hRK : (1 : K) ≤ R := by exact_mod_cast hR
  have hR0 : (R : K) ≠ 0 := by positivity
  unfold Comb corners centre
  by_cases hd : x + y < R
  · have hd' : (x : Int) + (y : Int) < (R : Int) := by omega
    simp only [if_pos hd, if_pos hd']
    push_cast
    refine ⟨by norm_num, ?_, ?_⟩ <;> field_simp <;> ring
  · have hd' : ¬ ((x : Int) + (y : Int) < (R : Int)) := by omega
    simp only [if_neg hd, if_neg hd']
    push_cast
    refine ⟨by norm_num, ?_, ?_⟩ <;> field_simp <;> ring

theorem centre_inside {R : Nat} {x y : Nat} (hx : x < R) :
    Inside R ((x : Int), (y : Int)) ((centre R x y : K × K × K).1, (centre R x y : K × K × K).2.1) :=
  ⟨(1 / 3, 1 / 3, 1 / 3), centre_centroid hx, by norm_num, by norm_num, by norm_num⟩

theorem centre_sum (R x y : Nat) : (centre R x y : K × K × K).1 + (centre R x y : K × K × K).2.1 + (centre R x y : K × K × K).2.2 = 1 := by
  unfold centre; simp only; ring

/-- A point of the small triangle is close to its centre. -/
theorem centre_close {R : Nat} {x y : Nat} (hx : x < R) {b : K × K} (h : InTri R ((x : Int), (y : Int)) b) :
    |b.1 - (centre R x y : K × K × K).1| ≤ 2 / (3 * R) ∧ |b.2 - (centre R x y : K × K × K).2.1| ≤ 2 / (3 * R) := by
  have hR : 1 ≤ R := by omega
  have hRK : (1 : K) ≤ R := by exact_mod_cast hR
  have hRp : (0 : K) < R := by positivity
  have hR0 : (R : K) ≠ 0 := hRp.ne'
  obtain ⟨⟨l0, l1, l2⟩, ⟨hsum, e1, e2⟩, p0, p1, p2⟩ := h
  simp only at hsum e1 e2 p0 p1 p2
  have hl2 : l2 = 1 - l0 - l1 := by linarith
  have key : ∀ (l : K), 0 ≤ l → l ≤ 1 → |(l - 1 / 3) / R| ≤ 2 / (3 * R) := by
    intro l h0 h1
    rw [abs_div, abs_of_pos hRp]
    have : 2 / (3 * (R : K)) = (2 / 3) / R := by field_simp
    rw [this]
    apply div_le_div_of_nonneg_right _ hRp.le
    rw [abs_le]; constructor <;> linarith
  have key' : ∀ (l : K), 0 ≤ l → l ≤ 1 → |(1 / 3 - l) / R| ≤ 2 / (3 * R) := by
    intro l h0 h1
    have := key l h0 h1
    rw [← abs_neg] at this
    rw [show (1 / 3 - l) / (R : K) = -((l - 1 / 3) / R) by ring]
    exact this
  unfold corners at e1 e2
  unfold centre
  by_cases hd : x + y < R
  · have hd' : (x : Int) + (y : Int) < (R : Int) := by omega
    rw [if_pos hd'] at e1 e2
    simp only [if_pos hd] at e1 e2 ⊢
    push_cast at e1 e2
    have d1 : b.1 - ((x : K) + 1 / 3) / R = (l0 - 1 / 3) / R := by
      rw [e1, hl2]; field_simp; ring
    have d2 : b.2 - ((y : K) + 1 / 3) / R = (l1 - 1 / 3) / R := by
      rw [e2, hl2]; field_simp; ring
    rw [d1, d2]
    exact ⟨key _ p0 (by linarith), key _ p1 (by linarith)⟩
  · have hd' : ¬ ((x : Int) + (y : Int) < (R : Int)) := by omega
    rw [if_neg hd'] at e1 e2
    simp only [if_neg hd] at e1 e2 ⊢
    push_cast at e1 e2
    have d1 : b.1 - ((R : K) - 1 - x + 2 / 3) / R = (1 / 3 - l0) / R := by
      rw [e1, hl2]; field_simp; ring
    have d2 : b.2 - ((R : K) - 1 - y + 2 / 3) / R = (1 / 3 - l1) / R := by
      rw [e2, hl2]; field_simp; ring
    rw [d1, d2]
    exact ⟨key' _ p0 (by linarith), key' _ p1 (by linarith)⟩

/-- At a lattice point inside the edge from the first to the second vertex, the cell read is the mirrored one. -/
theorem cell_seam {R i j : Nat} (hi : 0 < i) (hj : 0 < j) (hij : i + j = R) {b : K × K} (h1 : b.1 * R = i) (h2 : b.2 * R = j) :
    cell R b.1 b.2 = ((i : Int), (j : Int)) := by
  have key : ∀ (w : Nat), w < R → min (truncZ (w : K)) ((R : Int) - 1) = w := by
    intro w h3
    rw [truncZ_nonneg (by positivity)]
    rw [Int.floor_natCast]; omega
  unfold cell
  simp only
  rw [add_mul, h1, h2, key i (by omega), key j (by omega), if_pos]
  push_cast; simp

end P3D.Atlas
