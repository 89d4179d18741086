/-
`TexturesUV` with several maps per mesh: the branch of `sample_textures` with `maps_ids`, `renderer/mesh/textures.py:1273-1315`, and
`faces_verts_textures_packed`, `renderer/mesh/textures.py:1318-1375`.

One channel; numbers are an ordered field with floor.  `F.grid_sample` on volumes is PyTorch's: its documented formula (trilinear or nearest)
is written out here as interpolation along the axis of the maps of the samples of the single maps.
-/
import Verif.UvSample
import Verif.FaceAttrs

set_option linter.unusedSectionVars false

namespace P3D.UvMaps

open P3D.Uv

variable {K : Type} [Field K] [LinearOrder K] [IsStrictOrderedRing K] [FloorRing K]

/-! ### Model -/

/-- One channel of the maps of a mesh, shape `(M, H, W)`. -/
structure Maps (K : Type) where
  M : Nat
  H : Nat
  W : Nat
  val : Int → Int → Int → K

/-- One of the maps. -/
def plane (m : Maps K) (k : Int) : TexMap K := ⟨m.H, m.W, m.val k⟩

/-- `F.grid_sample` on a volume of depth `M` at grid point `(gx, gy, gz)`: eight neighbours, zero outside, or the nearest. -/
def gridSample3 (c : Cfg) (m : Maps K) (gx gy gz : K) : K :=
  let x := padCoord c.align c.pad m.W (unnorm c.align m.W gx)
  let y := padCoord c.align c.pad m.H (unnorm c.align m.H gy)
  let z := padCoord c.align c.pad m.M (unnorm c.align m.M gz)
  match c.mode with
  | .bilinear =>
    let at_ := fun k : Int => if 0 ≤ k ∧ k < m.M then bilinear (plane m k) y x else 0
    at_ ⌊z⌋ * (1 - (z - ⌊z⌋)) + at_ (⌊z⌋ + 1) * (z - ⌊z⌋)
  | .nearest => if 0 ≤ roundEven z ∧ roundEven z < m.M then texel (plane m (roundEven z)) (roundEven y) (roundEven x) else 0

/-- textures.py:1290-1312: sampling with map index `id`.  `none`: with a single map the index is divided by zero (`0 / 0` is not a number). -/
def sampleMaps (c : Cfg) (m : Maps K) (id : Nat) (uv : K × K) : Option K :=
  if m.M = 1 then none else some (gridSample3 c m (lerp (-1) 1 uv.1) (lerp 1 (-1) uv.2) (2 * (id : K) / ((m.M : K) - 1) - 1))

/-- textures.py:901: `list_to_padded(maps_ids, pad_value=0)`. -/
def idsPadded (ids : List (List Nat)) : List (List Nat) :=
  let n := (ids.map List.length).foldl max 0
  ids.map fun l => l ++ List.replicate (n - l.length) 0

/-- textures.py:1280-1288 `pixel_to_map_ids`: the map index used for a fragment; `pix` is its index into the packed faces. -/
def mapId (ids : List (List Nat)) (pix : Int) : Option Nat := (idsPadded ids).flatten[(if pix < 0 then 0 else pix).toNat]?

/-- textures.py:1352-1354, 1371-1375: the map index used by `faces_verts_textures_packed` for each packed face (rows of the padded table, cut
to the number of faces of the mesh). -/
def vertIds (ids : List (List Nat)) : List Nat :=
  ((idsPadded ids).zipWith (fun r l => r.take l.length) ids).flatten

/-! ### The maps -/

/-- With `align_corners=True` (the default) and at least two maps, any map of the mesh is sampled exactly as if it were the only one. -/
theorem maps_align {c : Cfg} (hc : c.align = true) {m : Maps K} (hM : 2 ≤ m.M) {id : Nat} (hid : id < m.M) (uv : K × K) :
    sampleMaps c m id uv = some (sampleUV c (plane m id) uv) := by
  have hMK : (2 : K) ≤ m.M := by exact_mod_cast hM
  have hidK : (id : K) + 1 ≤ m.M := by exact_mod_cast hid
  have hM1 : (m.M : K) - 1 ≠ 0 := by linarith
  unfold sampleMaps
  rw [if_neg (by omega)]
  congr 1
  have hz : unnorm c.align m.M (2 * (id : K) / ((m.M : K) - 1) - 1) = ((id : Int) : K) := by
    unfold unnorm
    rw [hc, if_pos rfl]
    push_cast
    field_simp; ring
  have hp : padCoord c.align c.pad m.M ((id : Int) : K) = ((id : Int) : K) :=
    padCoord_id _ _ (by push_cast; positivity) (by push_cast; linarith)
  have h0 : 0 ≤ (id : Int) ∧ (id : Int) < (m.M : Int) := by omega
  unfold gridSample3 sampleUV gridSample
  rw [hz, hp]
  cases hmode : c.mode with
  | bilinear =>
    simp only [Int.floor_intCast]
    rw [if_pos h0]
    simp [plane]
  | nearest =>
    simp only [roundEven_int]
    rw [if_pos h0]
    rfl

/-- Where `align_corners=False` puts map `id`: not at its centre, unless it is the middle one. -/
theorem maps_position {m : Maps K} (hM : 2 ≤ m.M) (id : Nat) :
    unnorm false m.M (2 * (id : K) / ((m.M : K) - 1) - 1) = (id : K) + ((id : K) / ((m.M : K) - 1) - 1 / 2) := by
  have hMK : (2 : K) ≤ m.M := by exact_mod_cast hM
  have hM1 : (m.M : K) - 1 ≠ 0 := by linarith
  unfold unnorm
  simp only [Bool.false_eq_true, if_false]
  push_cast
  field_simp; ring

theorem roundEven_near {x : K} {n : Int} (h0 : (n : K) - 1 / 2 < x) (h1 : x < (n : K) + 1 / 2) : roundEven x = n := by
  obtain ⟨b0, b1⟩ := roundEven_bounds x
  have l1 : ((roundEven x : Int) : K) < n + 1 := by linarith
  have l2 : ((n : Int) : K) < roundEven x + 1 := by linarith
  have l1' : roundEven x < n + 1 := by exact_mod_cast l1
  have l2' : n < roundEven x + 1 := by exact_mod_cast l2
  omega

/-- With `align_corners=False`, nearest sampling and border padding still find the right map. -/
theorem maps_nearest {c : Cfg} (hm : c.mode = .nearest) (hc : c.align = false) (hpad : c.pad = .border) {m : Maps K} (hM : 2 ≤ m.M) {id : Nat}
    (hid : id < m.M) (uv : K × K) : sampleMaps c m id uv = some (sampleUV c (plane m id) uv) := by
  have hMK : (2 : K) ≤ m.M := by exact_mod_cast hM
  have hidK : (id : K) + 1 ≤ m.M := by exact_mod_cast hid
  have hid0 : (0 : K) ≤ id := by positivity
  have hM1 : (0 : K) < (m.M : K) - 1 := by linarith
  unfold sampleMaps
  rw [if_neg (by omega)]
  congr 1
  have hr : roundEven (padCoord c.align c.pad m.M (unnorm c.align m.M (2 * (id : K) / ((m.M : K) - 1) - 1))) = (id : Int) := by
    rw [hc, hpad, maps_position hM]
    unfold padCoord
    simp only
    rcases Nat.eq_zero_or_pos id with h0 | h0
    · subst h0
      have : clipC (m.M : Int) ((((0 : Nat) : K)) + (((0 : Nat) : K) / ((m.M : K) - 1) - 1 / 2)) = ((0 : Int) : K) := by
        unfold clipC
        rw [max_eq_right (by norm_num), min_eq_right (by push_cast; linarith)]; simp
      rw [this, roundEven_int]; rfl
    · rcases Nat.lt_or_ge id (m.M - 1) with h1 | h1
      · have h0K : (0 : K) < id := by exact_mod_cast h0
        have h1' : id + 1 < m.M := by omega
        have h1K : (id : K) + 1 < m.M := by exact_mod_cast h1'
        have q0 : 0 < (id : K) / ((m.M : K) - 1) := div_pos h0K hM1
        have q1 : (id : K) / ((m.M : K) - 1) < 1 := by rw [div_lt_one hM1]; linarith
        rw [roundEven_clip (by omega)]
        have : roundEven ((id : K) + ((id : K) / ((m.M : K) - 1) - 1 / 2)) = (id : Int) := by
          apply roundEven_near <;> push_cast <;> linarith
        rw [this]
        unfold clampI; omega
      · have he : id = m.M - 1 := by omega
        have heK : (id : K) = (m.M : K) - 1 := by rw [he, Nat.cast_sub (by omega)]; simp
        have : clipC (m.M : Int) ((id : K) + ((id : K) / ((m.M : K) - 1) - 1 / 2)) = (((m.M : Int) - 1 : Int) : K) := by
          have hge : (m.M : K) - 1 ≤ (id : K) + ((id : K) / ((m.M : K) - 1) - 1 / 2) := by
            rw [heK, div_self hM1.ne']; linarith
          unfold clipC
          push_cast
          rw [max_eq_left (by linarith), min_eq_left hge]
        rw [this, roundEven_int]; omega
  have h0 : 0 ≤ (id : Int) ∧ (id : Int) < (m.M : Int) := by omega
  unfold gridSample3 sampleUV gridSample
  simp only [hm]
  rw [hr, if_pos h0]
  rfl

/-- `n` maps of a single texel with values 1, 2, 3, … -/
def exMaps (n : Nat) : Maps Rat := ⟨n, 1, 1, fun k _ _ => k + 1⟩

/-- With `align_corners=False` bilinear sampling mixes neighbouring maps; with zero padding the outer maps fade; with nearest sampling and zero
padding the last of an even number of maps is lost; a single map is never sampled. -/
theorem maps_mixed :
    sampleMaps ⟨.bilinear, false, .border⟩ (exMaps 4) 1 ((1 / 2, 1 / 2) : Rat × Rat) = some (11 / 6) ∧
    sampleUV ⟨.bilinear, false, .border⟩ (plane (exMaps 4) 1) ((1 / 2, 1 / 2) : Rat × Rat) = 2 ∧
    sampleMaps ⟨.bilinear, false, .zeros⟩ (exMaps 2) 0 ((1 / 2, 1 / 2) : Rat × Rat) = some (1 / 2) ∧
    sampleMaps ⟨.nearest, false, .zeros⟩ (exMaps 4) 3 ((1 / 2, 1 / 2) : Rat × Rat) = some 0 ∧
    sampleMaps ⟨.bilinear, true, .border⟩ (exMaps 1) 0 ((1 / 2, 1 / 2) : Rat × Rat) = none := by
  decide +kernel

/-! ### The map of a face -/

theorem foldl_max_le {l : List Nat} {a n : Nat} (ha : a ≤ n) (h : ∀ x ∈ l, x ≤ n) : l.foldl max a ≤ n := by
  induction l generalizing a with
  | nil => exact ha
  | cons x l ih =>
    rw [List.foldl_cons]
    have := h x (by simp)
    exact ih (by omega) fun y hy => h y (by simp [hy])

theorem le_foldl_max {l : List Nat} {a : Nat} : a ≤ l.foldl max a ∧ ∀ x ∈ l, x ≤ l.foldl max a := by
  induction l generalizing a with
  | nil => simp
  | cons x l ih =>
    rw [List.foldl_cons]
    obtain ⟨h1, h2⟩ := ih (a := max a x)
    refine ⟨by omega, ?_⟩
    intro y hy
    rcases List.mem_cons.mp hy with h | h
    · subst h; omega
    · exact h2 y h

/-- If all meshes of the batch have the same number of faces, a fragment uses the map of its face. -/
theorem mapId_equal {ids : List (List Nat)} {n : Nat} (h : ∀ l ∈ ids, l.length = n) (f : Nat) : mapId ids f = ids.flatten[f]? := by
  have hp : idsPadded ids = ids := by
    unfold idsPadded
    simp only
    have : ∀ l ∈ ids, (l ++ List.replicate ((ids.map List.length).foldl max 0 - l.length) 0) = l := by
      intro l hl
      have hm : (ids.map List.length).foldl max 0 ≤ n := foldl_max_le (Nat.zero_le _) (by
        intro x hx
        rw [List.mem_map] at hx
        obtain ⟨l', h1, rfl⟩ := hx
        exact (h l' h1).le)
      rw [h l hl]
      have : (ids.map List.length).foldl max 0 - n = 0 := by omega
      rw [this]; simp
    conv_rhs => rw [← List.map_id ids]
    apply List.map_congr_left
    intro l hl
    rw [this l hl]; rfl
  unfold mapId
  rw [hp, if_neg (by omega)]
  simp

/-- `faces_verts_textures_packed` uses the map of each face in all cases. -/
theorem vertIds_eq (ids : List (List Nat)) : vertIds ids = ids.flatten := by
  unfold vertIds idsPadded
  congr 1
  generalize (ids.map List.length).foldl max 0 = n
  induction ids with
  | nil => rfl
  | cons l ids ih =>
    rw [List.map_cons, List.zipWith_cons_cons, ih]
    simp

/-- Otherwise `sample_textures` reads the table at the wrong place: if the first mesh has fewer faces than some other one, the first face of the
second mesh uses map `0` whatever its own map is. -/
theorem mapId_padding {l0 l1 : List Nat} {rest : List (List Nat)} {l : List Nat} (hl : l ∈ l0 :: l1 :: rest) (h : l0.length < l.length) :
    mapId (l0 :: l1 :: rest) l0.length = some 0 := by
  have hm : l.length ≤ ((l0 :: l1 :: rest).map List.length).foldl max 0 := le_foldl_max.2 _ (List.mem_map_of_mem hl)
  unfold mapId idsPadded
  simp only
  rw [if_neg (by omega), List.map_cons, List.flatten_cons]
  generalize ((l0 :: l1 :: rest).map List.length).foldl max 0 = n at *
  simp only [Int.toNat_natCast]
  rw [List.getElem?_append_left (by simp; omega), List.getElem?_append_right (by omega)]
  rw [List.getElem?_replicate, if_pos (by omega)]

/-- A batch of a mesh with one face and a mesh with two faces, all using map 1: the first face of the second mesh is drawn with map 0. -/
theorem mapId_wrong : ([[1], [1, 1]] : List (List Nat)).flatten[1]? = some 1 ∧ mapId [[1], [1, 1]] 1 = some 0 ∧
    vertIds [[1], [1, 1]] = [1, 1, 1] := by
  decide +kernel

example : mapId [[1, 0], [2, 1]] 2 = some 2 ∧ sampleMaps ⟨.bilinear, true, .border⟩ (exMaps 3) 2 ((1 / 3, 1 / 5) : Rat × Rat) = some 3 ∧
    sampleMaps ⟨.nearest, false, .border⟩ (exMaps 4) 3 ((1 / 3, 1 / 5) : Rat × Rat) = some 4 := by decide +kernel

end P3D.UvMaps
