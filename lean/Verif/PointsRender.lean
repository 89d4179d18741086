/-
Rendering of point clouds: `renderer/points/renderer.py`, `renderer/points/compositor.py`, the arguments of
`renderer/points/rasterize_points.py` and of `renderer/mesh/rasterize_meshes.py` (radius, image size, bin size) and
`parse_image_size` of `renderer/utils.py`.

The rasterizer of a pixel is `Raster.pointPixelCpu` (C29), the compositing loops are those of `Compositing` (C35, C36).
Numbers are an ordered field.
-/
import Verif.RasterPoints
import Verif.CompositingProps
import Verif.WeightedSumProps
import Verif.StructUtilsProps
import Mathlib.Data.Nat.Log
import Mathlib.Data.List.GetD
import Mathlib.Tactic.Linarith

set_option linter.unusedSectionVars false

namespace P3D.PointsRender

open P3D.Raster P3D.Compositing

inductive Err where
  | valueError | typeError | runtimeError
deriving DecidableEq

/-! ## Model: arguments -/

/-- `radius` as given: a number, a tensor with its shape and rows, or something else (an `int`, say).  Lists become tensors. -/
inductive Radius (F : Type) where
  | float (r : F)
  | vector (r : List F)
  | matrix (N P : Nat) (rows : List (List F))
  | other

/-- `_format_radius` (`rasterize_points.py:152-195`) for clouds with `num` points each: the padded width is the largest. -/
def formatRadius {F : Type} (radius : Radius F) (num : List Nat) : Except Err (List F) :=
  let P := num.foldr max 0
  match radius with
  | .float r => .ok (List.replicate num.sum r)
  | .vector r => if num.length = 1 ∧ r.length = P then packed P [r] else .error .valueError
  | .matrix n p rows => if n = num.length ∧ p = P then packed P rows else .error .valueError
  | .other => .error .valueError
where
  packed (P : Nat) (rows : List (List F)) : Except Err (List F) :=
    match StructUtils.gather rows.flatten (StructUtils.packedIdx P num) with
    | .ok r => .ok r
    | .error _ => .error .runtimeError

/-- `image_size` as given; entries that are not integers are `none`. -/
inductive Size where
  | scalar (n : Int)
  | tuple (l : List (Option Int))
  | list (l : List (Option Int))

/-- `parse_image_size` (`utils.py:441-463`).  Non-integers are positive here.  The message of the exceptions is formatted with
the sizes, which fails for lists. -/
def parseImageSize : Size → Except Err (Int × Int)
  | .scalar n => .ok (n, n)
  | .tuple [some h, some w] => if 0 < h ∧ 0 < w then .ok (h, w) else .error .valueError
  | .tuple _ => .error .valueError
  | .list [some h, some w] => if 0 < h ∧ 0 < w then .ok (h, w) else .error .typeError
  | .list [_, _] => .error .typeError
  | .list _ => .error .valueError

/-- `kMaxPointsPerBin`, `kMaxFacesPerBin` (`rasterize_points.py:21`, `rasterize_meshes.py:24`). -/
def maxPerBin : Nat := 22

/-- `bin_size` (`rasterize_points.py:113-127`, `rasterize_meshes.py:195-219`) for an image whose longer side is `S`;
`ceil(log2 S)` is exact. -/
def binSize (meshes cuda : Bool) (given : Option Nat) (S : Nat) : Except Err Nat :=
  let b := match given with
    | some b => b
    | none => if cuda then (if meshes && decide (S ≤ 64) then 8 else 2 ^ max (Nat.clog 2 S - 4) 4) else 0
  if b ≠ 0 ∧ maxPerBin ≤ 1 + (S - 1) / b then .error .valueError else .ok b

/-! ## Model: a pixel -/

variable {F : Type} [Field F] [LinearOrder F] [IsStrictOrderedRing F]

/-- `weights` (`renderer.py:62-63`). -/
def weight (r : F) (c : PCell F) : F := 1 - c.dist2 / (r * r)

/-- The inputs of the compositor at one pixel, for one channel. -/
def slots (r : F) (cells : List (PCell F)) (f : Nat → F) : Px F where
  K := cells.length
  idx k := (cells.getD k PCell.empty).idx
  al k := weight r (cells.getD k PCell.empty)
  f := f

/-- The two compositors. -/
inductive Comp (F : Type) where
  | alpha
  | norm (eps : F)

def composite (c : Comp F) (p : Px F) : F :=
  match c with
  | .alpha => (acForward p).sum
  | .norm eps => (nwForward eps p).sum

/-- `background_color` as given: nothing, a number, a vector, or a tensor of more dimensions. -/
inductive Bg (F : Type) where
  | none
  | scalar (x : F)
  | vector (l : List F)
  | matrix

/-- `_add_background_color_to_images` up to the colour (`compositor.py:84-108`), for `C` channels. -/
def bgColour (C : Nat) : Bg F → Except Err (Option (List F))
  | .none => .ok Option.none
  | .scalar x => .ok (some (List.replicate C x))
  | .vector l =>
    let l' := if l.length + 1 = C then l ++ [1] else l
    if l'.length = C then .ok (some l') else .error .valueError
  | .matrix => .error .valueError

/-- The pixel after `masked_scatter` (`compositor.py:80`, `:112-117`): `cells` are its fragments. -/
def withBg (bg : Option (List F)) (cells : List (PCell F)) (img : List F) : List F :=
  match bg with
  | Option.none => img
  | some l => if (cells.getD 0 PCell.empty).idx < 0 then l else img

/-- `PointsRenderer.forward` at one pixel (`renderer.py:53-75`): `items` are the points of the cloud with the radii of the
rasterizer, `r` the radius in the settings of the renderer, `feats` the channels of `features_packed`. -/
def renderPixel (c : Comp F) (K : Nat) (items : List (PItem F)) (xf yf r : F) (feats : List (Nat → F)) (bg : Bg F) : Except Err (List F) :=
  let cells := pointPixelCpu K items xf yf
  match bgColour feats.length bg with
  | .error e => .error e
  | .ok b => .ok (withBg b cells (feats.map fun f => composite c (slots r cells f)))

/-- Broadcasting of `dists2` of shape `(N, K, H, W)` with a radius of shape `(N, P)`: the entry of the radius used at pixel
`(h, w)` (`renderer.py:62-63`), if the shape of the result is that of `dists2`. -/
def radiusEntry (N P H W h w : Nat) : Option (Nat × Nat) :=
  if (N = H ∨ N = 1) ∧ (P = W ∨ P = 1) then some (if N = 1 then 0 else h, if P = 1 then 0 else w) else Option.none

/-! ## Arguments -/

theorem le_foldr_max (num : List Nat) : ∀ v ∈ num, v ≤ num.foldr max 0 := by
  induction num with
  | nil => simp
  | cons a l ih =>
    intro v hv
    simp only [List.mem_cons] at hv
    simp only [List.foldr_cons]
    rcases hv with rfl | h
    · exact le_max_left _ _
    · exact le_trans (ih v h) (le_max_right _ _)

/-- **C80.** A tensor of radii, one row for each cloud, padded: every point gets its own entry. -/
theorem formatRadius_matrix {F : Type} (rows : List (List F)) (num : List Nat) (hr : rows.length = num.length)
    (hP : ∀ r ∈ rows, r.length = num.foldr max 0) :
    formatRadius (.matrix num.length (num.foldr max 0) rows) num = .ok (List.zipWith (fun row n => row.take n) rows num).flatten := by
  unfold formatRadius
  dsimp only
  rw [if_pos ⟨rfl, rfl⟩]
  unfold formatRadius.packed
  rw [StructUtils.mapM_lookup_ok _ _ _ (StructUtils.packedIdx_lookup _ rows num hP hr (le_foldr_max num))]

/-- **C80.** A number is used for all points; one cloud may have a vector of radii. -/
theorem formatRadius_other {F : Type} (num : List Nat) (n : Nat) (r : F) (v : List F) (hv : v.length = n) :
    formatRadius (.float r) num = .ok (List.replicate num.sum r) ∧ formatRadius (.vector v) [n] = .ok v := by
  refine ⟨rfl, ?_⟩
  have := formatRadius_matrix [v] [n] rfl (by simp [hv])
  unfold formatRadius at this ⊢
  dsimp only at this ⊢
  rw [if_pos ⟨rfl, rfl⟩] at this
  rw [if_pos ⟨rfl, by simp [hv]⟩, this]
  simp [hv]

/-- **C80.** Everything else raises: another shape, a vector for a batch of several clouds, an `int`. -/
theorem formatRadius_error {F : Type} (radius : Radius F) (num : List Nat) : formatRadius radius num = .error .valueError ↔
    match radius with
    | .float _ => False
    | .vector r => ¬ (num.length = 1 ∧ r.length = num.foldr max 0)
    | .matrix n p _ => ¬ (n = num.length ∧ p = num.foldr max 0)
    | .other => True := by
  have hp : ∀ P (rows : List (List F)), formatRadius.packed num P rows ≠ .error .valueError := by
    intro P rows h
    unfold formatRadius.packed at h
    split at h <;> cases h
  unfold formatRadius
  cases radius with
  | float r => simp
  | vector r =>
    dsimp only
    split
    · rename_i h; exact iff_of_false (hp _ _) (not_not.mpr h)
    · rename_i h; exact iff_of_true rfl h
  | matrix n p rows =>
    dsimp only
    split
    · rename_i h; exact iff_of_false (hp _ _) (not_not.mpr h)
    · rename_i h; exact iff_of_true rfl h
  | other => simp

/-- **C80.** The heuristic for the bin size never exceeds the limit of bins, for any image size; on the CPU there are no bins. -/
theorem binSize_default (meshes : Bool) (S : Nat) :
    (∃ b, 0 < b ∧ binSize meshes true none S = .ok b ∧ 1 + (S - 1) / b ≤ 16) ∧ binSize meshes false none S = .ok 0 := by
  constructor
  · have hlim : ∀ b, 0 < b → 1 + (S - 1) / b ≤ 16 → (if b ≠ 0 ∧ maxPerBin ≤ 1 + (S - 1) / b then .error .valueError else .ok b : Except Err Nat) = .ok b := by
      intro b hb h
      rw [if_neg]
      rintro ⟨-, h2⟩
      unfold maxPerBin at h2
      omega
    have hpow : 1 + (S - 1) / 2 ^ max (Nat.clog 2 S - 4) 4 ≤ 16 := by
      have hS : S ≤ 2 ^ Nat.clog 2 S := Nat.le_pow_clog (by norm_num) S
      have h16 : S ≤ 16 * 2 ^ max (Nat.clog 2 S - 4) 4 := by
        calc S ≤ 2 ^ Nat.clog 2 S := hS
          _ ≤ 2 ^ (4 + max (Nat.clog 2 S - 4) 4) := Nat.pow_le_pow_right (by norm_num) (by omega)
          _ = 16 * 2 ^ max (Nat.clog 2 S - 4) 4 := by rw [pow_add]; norm_num
      have hp : 0 < 2 ^ max (Nat.clog 2 S - 4) 4 := by positivity
      rcases Nat.eq_zero_or_pos S with h | h
      · subst h; simp
      · have : (S - 1) / 2 ^ max (Nat.clog 2 S - 4) 4 < 16 := by
          rw [Nat.div_lt_iff_lt_mul hp]; omega
        omega
    unfold binSize
    dsimp only
    rw [if_pos rfl]
    by_cases h : (meshes && decide (S ≤ 64)) = true
    · rw [if_pos h]
      have h64 : S ≤ 64 := by
        rw [Bool.and_eq_true, decide_eq_true_eq] at h
        exact h.2
      have : 1 + (S - 1) / 8 ≤ 16 := by omega
      exact ⟨8, by norm_num, hlim 8 (by norm_num) this, this⟩
    · rw [if_neg h]
      exact ⟨_, by positivity, hlim _ (by positivity) hpow, hpow⟩
  · simp [binSize]

/-- **C80.** A bin size is refused exactly if there would be 22 or more bins along the longer side. -/
theorem binSize_given (meshes cuda : Bool) (b S : Nat) : binSize meshes cuda (some b) S = .error .valueError ↔ b ≠ 0 ∧ 21 * b < S := by
  unfold binSize
  dsimp only
  rcases Nat.eq_zero_or_pos b with h | h
  · subst h; simp
  · have e : maxPerBin ≤ 1 + (S - 1) / b ↔ 21 * b < S := by
      unfold maxPerBin
      rw [show (22 ≤ 1 + (S - 1) / b) ↔ 21 ≤ (S - 1) / b by omega, Nat.le_div_iff_mul_le h]
      have : 0 < 21 * b := by omega
      omega
    split
    · rename_i h2; exact iff_of_true rfl ⟨h2.1, e.mp h2.2⟩
    · rename_i h2
      exact iff_of_false (by simp) (fun h3 => h2 ⟨h3.1, e.mpr h3.2⟩)

/-- **C80.** Image sizes: pairs of positive integers, and every single number, positive or not. -/
theorem parseImageSize_ok (s : Size) (h w : Int) : parseImageSize s = .ok (h, w) ↔
    (s = .scalar h ∧ h = w) ∨ ((s = .tuple [some h, some w] ∨ s = .list [some h, some w]) ∧ 0 < h ∧ 0 < w) := by
  constructor
  · intro hs
    unfold parseImageSize at hs
    split at hs <;> try cases hs
    · exact Or.inl ⟨rfl, rfl⟩
    · split at hs
      · rename_i hp; cases hs; exact Or.inr ⟨Or.inl rfl, hp⟩
      · cases hs
    · split at hs
      · rename_i hp; cases hs; exact Or.inr ⟨Or.inr rfl, hp⟩
      · cases hs
  · rintro (⟨rfl, rfl⟩ | ⟨rfl | rfl, hp⟩)
    · rfl
    · simp [parseImageSize, hp]
    · simp [parseImageSize, hp]

/-! ## Pixels -/

theorem range_map_getD {α : Type} (l : List α) (d : α) : (List.range l.length).map (fun k => l.getD k d) = l := by
  apply List.ext_getElem
  · simp
  · intro i h1 h2
    simp only [List.getElem_map, List.getElem_range]
    rw [List.getD_eq_getElem _ _ h2]

theorem slots_layers' (r : F) (cells : List (PCell F)) (f : Nat → F) :
    (slots r cells f).layers (List.range cells.length)
      = (cells.filter fun c => !decide (c.idx < 0)).map fun c => (weight r c, f c.idx.toNat) := by
  conv_rhs => rw [← range_map_getD cells PCell.empty]
  rw [List.filter_map, List.map_map]
  rfl

/-- The layers of the slots of a pixel are its fragments. -/
theorem slots_layers (r : F) (K : Nat) (frs : List (PFrag F)) (f : Nat → F) :
    (slots r (padded K frs) f).layers (List.range (padded K frs).length)
      = frs.map fun x => (1 - x.dist2 / (r * r), f x.idx) := by
  rw [slots_layers']
  unfold padded
  rw [List.filter_append, List.filter_eq_self.mpr, List.filter_eq_nil_iff.mpr, List.append_nil, List.map_map]
  · apply List.map_congr_left
    intro x _
    simp [weight, PFrag.cell]
  · intro c hc
    rw [List.mem_replicate] at hc
    rw [hc.2]
    simp [PCell.empty]
  · intro c hc
    rw [List.mem_map] at hc
    obtain ⟨x, -, rfl⟩ := hc
    have : ¬ (x.cell.idx < 0) := by simp [PFrag.cell]
    simp [this]

/-! ### The specification -/

/-- The discs seen through the pixel, front to back, and at most `K` of them: exactly the nearest. -/
structure Nearest (K : Nat) (items : List (PItem F)) (xf yf : F) (frs : List (PFrag F)) : Prop where
  sorted : frs.Pairwise (fun a b => a.z < b.z ∨ a.z = b.z ∧ a.idx < b.idx)
  covers : ∀ f ∈ frs, Covers xf yf items f
  len : frs.length ≤ K
  all : ∀ f, Covers xf yf items f → f ∉ frs → frs.length = K ∧ ∀ g ∈ frs, g.z < f.z ∨ g.z = f.z ∧ g.idx < f.idx

/-- Opacity of a disc at a point of it: 1 in the middle, 0 at the rim. -/
def opacity (r : F) (x : PFrag F) : F := 1 - x.dist2 / r ^ 2

/-- The colour of a list of discs. -/
def colour (c : Comp F) (r : F) (frs : List (PFrag F)) (f : Nat → F) : F :=
  match c with
  | .alpha => over (frs.map fun x => (opacity r x, f x.idx))
  | .norm eps => (frs.map fun x => opacity r x * f x.idx).sum / max (frs.map (opacity r)).sum eps

theorem composite_colour (c : Comp F) (r : F) (K : Nat) (frs : List (PFrag F)) (f : Nat → F) :
    composite c (slots r (padded K frs) f) = colour c r frs f := by
  have e := slots_layers r K frs f
  have e' : (slots r (padded K frs) f).layers (List.range (slots r (padded K frs) f).K)
      = frs.map fun x => (opacity r x, f x.idx) := by
    simp only [opacity, pow_two]
    exact e
  cases c with
  | alpha =>
    simp only [composite, colour]
    rw [acForward_sum, e']
  | norm eps =>
    simp only [composite, colour]
    rw [nwForward_sum]
    have h1 : (slots r (padded K frs) f).weightedSum (List.range (slots r (padded K frs) f).K)
        = (((slots r (padded K frs) f).layers (List.range (slots r (padded K frs) f).K)).map fun c => c.1 * c.2).sum := by
      simp only [Px.weightedSum, Px.layers, List.map_map]; rfl
    have h2 : (slots r (padded K frs) f).alphaSum (List.range (slots r (padded K frs) f).K)
        = (((slots r (padded K frs) f).layers (List.range (slots r (padded K frs) f).K)).map fun c => c.1).sum := by
      simp only [Px.alphaSum, Px.layers, List.map_map]; rfl
    rw [h1, h2, e', List.map_map, List.map_map]
    rfl

/-- **C80.** The rendered pixel: the `K` nearest discs covering it, composited front to back (or averaged) with opacities falling
from the centre of the disc to its rim; a pixel without a disc has the background colour, or 0. -/
theorem renderPixel_spec (c : Comp F) (K : Nat) (hK : 0 < K) (items : List (PItem F)) (hnd : (items.map PItem.idx).Nodup)
    (xf yf r : F) (feats : List (Nat → F)) (bg : Bg F) (b : Option (List F)) (hb : bgColour feats.length bg = .ok b) :
    ∃ frs, Nearest K items xf yf frs ∧ renderPixel c K items xf yf r feats bg
      = .ok (if frs = [] then b.getD (List.replicate feats.length 0) else feats.map (colour c r frs)) := by
  obtain ⟨frs, h1, h2, h3, h4, h5⟩ := pointPixelCpu_spec K items hnd xf yf
  refine ⟨frs, ⟨h2, h3, h4, h5⟩, ?_⟩
  unfold renderPixel
  dsimp only
  rw [hb, h1]
  dsimp only
  have hc : (feats.map fun f => composite c (slots r (padded K frs) f)) = feats.map (colour c r frs) :=
    List.map_congr_left fun f _ => composite_colour c r K frs f
  rw [hc]
  congr 1
  cases frs with
  | nil =>
    rw [if_pos rfl]
    have h0 : ((padded K ([] : List (PFrag F))).getD 0 PCell.empty).idx < 0 := by
      obtain ⟨k, rfl⟩ := Nat.exists_eq_succ_of_ne_zero hK.ne'
      simp [padded, PCell.empty, List.replicate_succ]
    unfold withBg
    cases b with
    | none =>
      rw [Option.getD_none]
      dsimp only
      rw [List.eq_replicate_iff]
      refine ⟨by simp, ?_⟩
      intro x hx
      rw [List.mem_map] at hx
      obtain ⟨f, -, rfl⟩ := hx
      cases c <;> simp [colour, over]
    | some l => dsimp only; rw [if_pos h0]; rfl
  | cons x frs =>
    rw [if_neg (by simp)]
    have h0 : ¬ ((padded K (x :: frs)).getD 0 PCell.empty).idx < 0 := by
      simp [padded, PFrag.cell]
    unfold withBg
    cases b with
    | none => rfl
    | some l => dsimp only; rw [if_neg h0]

/-- **C80.** With one radius for rasterizing and rendering the opacities are in (0, 1], `1` exactly at the centre of the disc. -/
theorem opacity_range (r : F) (items : List (PItem F)) (hr : ∀ it ∈ items, it.radius = r) (xf yf : F) (x : PFrag F)
    (h : Covers xf yf items x) : 0 < opacity r x ∧ opacity r x ≤ 1 ∧ (opacity r x = 1 ↔ x.dist2 = 0) := by
  obtain ⟨it, hit, h1, h2, -, h4, h5⟩ := h
  rw [hr it hit] at h5
  have hd : 0 ≤ x.dist2 := by rw [h4]; positivity
  have hr2 : 0 < r ^ 2 := lt_of_le_of_lt hd h5
  unfold opacity
  refine ⟨by rw [sub_pos, div_lt_one hr2]; exact h5, by rw [sub_le_self_iff]; positivity, ?_⟩
  rw [sub_eq_self, div_eq_zero_iff, or_iff_left hr2.ne']

/-- **C80.** With one radius, alpha compositing keeps every channel between 0 and its extremes, shrunk by the light that passes. -/
theorem alpha_range (r : F) (K : Nat) (items : List (PItem F)) (hr : ∀ it ∈ items, it.radius = r) (xf yf : F) (frs : List (PFrag F))
    (h : Nearest K items xf yf frs) (f : Nat → F) (lo hi : F) (hf : ∀ i, lo ≤ f i ∧ f i ≤ hi) :
    ∃ t, 0 ≤ t ∧ t ≤ 1 ∧ (frs ≠ [] → t < 1) ∧ (1 - t) * lo ≤ colour .alpha r frs f ∧ colour .alpha r frs f ≤ (1 - t) * hi := by
  have ho : ∀ x ∈ frs, 0 < opacity r x ∧ opacity r x ≤ 1 := fun x hx =>
    ⟨(opacity_range r items hr xf yf x (h.covers x hx)).1, (opacity_range r items hr xf yf x (h.covers x hx)).2.1⟩
  have hb := over_bounds (frs.map fun x => (opacity r x, f x.idx)) lo hi (by
    intro c hc
    rw [List.mem_map] at hc
    obtain ⟨x, hx, rfl⟩ := hc
    exact ⟨(ho x hx).1.le, (ho x hx).2, hf _⟩)
  have ht : ∀ l : List (PFrag F), (∀ x ∈ l, 0 < opacity r x ∧ opacity r x ≤ 1) →
      0 ≤ transmitted (l.map fun x => (opacity r x, f x.idx)) ∧ transmitted (l.map fun x => (opacity r x, f x.idx)) ≤ 1
        ∧ (l ≠ [] → transmitted (l.map fun x => (opacity r x, f x.idx)) < 1) := by
    intro l
    induction l with
    | nil => intro _; simp [transmitted]
    | cons x l ih =>
      intro hl
      have i := ih fun y hy => hl y (by simp [hy])
      have hx := hl x (by simp)
      have e : transmitted ((x :: l).map fun x => (opacity r x, f x.idx)) = (1 - opacity r x) * transmitted (l.map fun x => (opacity r x, f x.idx)) := by
        simp [transmitted]
      rw [e]
      have h1 : (1 - opacity r x) * transmitted (l.map fun x => (opacity r x, f x.idx)) ≤ (1 - opacity r x) * 1 :=
        mul_le_mul_of_nonneg_left i.2.1 (by linarith)
      exact ⟨mul_nonneg (by linarith) i.1, by linarith, fun _ => by linarith⟩
  exact ⟨_, (ht frs ho).1, (ht frs ho).2.1, (ht frs ho).2.2, hb.1, hb.2⟩

theorem weighted_bounds (l : List (F × F)) (lo hi : F) (h : ∀ c ∈ l, 0 ≤ c.1 ∧ lo ≤ c.2 ∧ c.2 ≤ hi) :
    (l.map (·.1)).sum * lo ≤ (l.map fun c => c.1 * c.2).sum ∧ (l.map fun c => c.1 * c.2).sum ≤ (l.map (·.1)).sum * hi := by
  induction l with
  | nil => simp
  | cons c l ih =>
    have i := ih fun c hc => h c (by simp [hc])
    have ⟨h1, h2, h3⟩ := h c (by simp)
    have a := mul_le_mul_of_nonneg_left h2 h1
    have b := mul_le_mul_of_nonneg_left h3 h1
    simp only [List.map_cons, List.sum_cons, add_mul]
    exact ⟨add_le_add a i.1, add_le_add b i.2⟩

/-- **C80.** With one radius, the normalised compositor gives an average of the channel over the discs, provided the opacities do
not fall below `eps` in total. -/
theorem norm_range (r eps : F) (heps : 0 < eps) (K : Nat) (items : List (PItem F)) (hr : ∀ it ∈ items, it.radius = r) (xf yf : F)
    (frs : List (PFrag F)) (h : Nearest K items xf yf frs) (f : Nat → F) (lo hi : F) (hf : ∀ i, lo ≤ f i ∧ f i ≤ hi)
    (htot : eps ≤ (frs.map (opacity r)).sum) : lo ≤ colour (.norm eps) r frs f ∧ colour (.norm eps) r frs f ≤ hi := by
  have hb := weighted_bounds (frs.map fun x => (opacity r x, f x.idx)) lo hi (by
    intro c hc
    rw [List.mem_map] at hc
    obtain ⟨x, hx, rfl⟩ := hc
    exact ⟨(opacity_range r items hr xf yf x (h.covers x hx)).1.le, hf _⟩)
  rw [List.map_map, List.map_map] at hb
  have hp : 0 < (frs.map (opacity r)).sum := lt_of_lt_of_le heps htot
  simp only [colour]
  rw [max_eq_left htot, le_div_iff₀ hp, div_le_iff₀ hp, mul_comm lo, mul_comm hi]
  exact hb

/-- **C80.** A pixel that a disc covers, however faintly, does not depend on the background colour: the rest of its light is black. -/
theorem covered_background (c : Comp F) (K : Nat) (hK : 0 < K) (items : List (PItem F)) (hnd : (items.map PItem.idx).Nodup)
    (xf yf r : F) (feats : List (Nat → F)) (bg : Bg F) (b : Option (List F)) (hb : bgColour feats.length bg = .ok b) (x : PFrag F)
    (hx : Covers xf yf items x) : renderPixel c K items xf yf r feats bg = renderPixel c K items xf yf r feats .none := by
  obtain ⟨frs, h1, h2, h3, h4, h5⟩ := pointPixelCpu_spec K items hnd xf yf
  have hne : frs ≠ [] := by
    rintro rfl
    have := (h5 x hx (by simp)).1
    simp only [List.length_nil] at this
    omega
  unfold renderPixel
  dsimp only
  rw [hb, h1]
  simp only [bgColour]
  obtain ⟨y, l, rfl⟩ := List.exists_cons_of_ne_nil hne
  have h0 : ¬ ((padded K (y :: l)).getD 0 PCell.empty).idx < 0 := by simp [padded, PFrag.cell]
  cases b with
  | none => rfl
  | some v => simp only [withBg]; rw [if_neg h0]

/-- **C80.** Background colours: a number, a vector with one entry for each channel, or without the last, which is then 1. -/
theorem bgColour_ok (C : Nat) (bg : Bg F) (b : Option (List F)) : bgColour C bg = .ok b ↔
    (bg = .none ∧ b = Option.none) ∨ (∃ x, bg = .scalar x ∧ b = some (List.replicate C x))
      ∨ ∃ l, bg = .vector l ∧ (l.length = C ∧ b = some l ∨ l.length + 1 = C ∧ b = some (l ++ [1])) := by
  cases bg with
  | none => simp [bgColour, eq_comm]
  | scalar x => simp [bgColour, eq_comm]
  | matrix => simp [bgColour]
  | vector l =>
    simp only [bgColour]
    by_cases h : l.length + 1 = C
    · simp only [h, if_true, List.length_append, List.length_cons, List.length_nil, zero_add]
      have h' : ¬ l.length = C := by omega
      constructor
      · intro e
        cases e
        exact Or.inr (Or.inr ⟨l, rfl, Or.inr ⟨h, rfl⟩⟩)
      · rintro (⟨e, -⟩ | ⟨x, e, -⟩ | ⟨l', e, ⟨h3, -⟩ | ⟨-, h4⟩⟩)
        · cases e
        · cases e
        · cases e; exact absurd h3 h'
        · cases e; rw [h4]
    · rw [if_neg h]
      by_cases h' : l.length = C
      · simp [h', eq_comm]
      · simp [h, h']

/-- **C80.** The weights use the radius in the settings the renderer was built with: if the points were rasterized with a larger
one (`raster_settings` given to `forward`), the opacity is negative beyond the smaller radius, and so may be the colour. -/
theorem override_negative (r : F) (hr : 0 < r) (x : PFrag F) (f : Nat → F) (hf : 0 < f x.idx) (hd : r ^ 2 < x.dist2) :
    opacity r x < 0 ∧ colour .alpha r [x] f < 0 := by
  have h : opacity r x < 0 := by
    unfold opacity
    rw [sub_neg, one_lt_div (by positivity)]
    exact hd
  refine ⟨h, ?_⟩
  simp only [colour, List.map_cons, List.map_nil, over, mul_zero, add_zero]
  exact mul_neg_of_neg_of_pos h hf

/-- **C80.** Radii for single points do not reach the weights: rendering raises unless the shapes happen to broadcast, and then
the radius is chosen by the row and column of the pixel. -/
theorem tensor_radius (N P H W h w : Nat) (hN : 1 < N) (hP : 1 < P) :
    radiusEntry N P H W h w = if N = H ∧ P = W then some (h, w) else Option.none := by
  unfold radiusEntry
  have h1 : N ≠ 1 := by omega
  have h2 : P ≠ 1 := by omega
  simp only [h1, h2, or_false, if_false]

/-! ## Examples -/

example : formatRadius (.matrix 2 3 [[1, 2, 3], [4, 5, 6]]) [3, 1] = .ok [1, 2, 3, (4 : ℚ)] := by decide +kernel

example : binSize false true none 512 = .ok 32 ∧ binSize true true none 64 = .ok 8 ∧ binSize true true (some 16) 512 = .error .valueError := by
  decide +kernel

example : parseImageSize (.scalar (-3)) = .ok (-3, -3) ∧ parseImageSize (.list [some 0, some 4]) = .error .typeError := by decide +kernel

/-- Two discs of radius 1, the nearer one seen at distance² 1/2: half of the colour of each. -/
def twoDiscs : List (PItem ℚ) := [⟨0, ⟨0, 0, 2⟩, 1⟩, ⟨1, ⟨1 / 2, 1 / 2, 1⟩, 1⟩]

example : renderPixel .alpha 2 twoDiscs 0 0 1 [fun i => if i = 0 then 1 else 0, fun i => if i = 0 then 0 else 1] (.scalar 7) = .ok [1 / 2, 1 / 2] := by
  decide +kernel

example : renderPixel .alpha 1 twoDiscs 0 0 (1 / 2) [fun i => if i = 0 then 1 else 0, fun i => if i = 0 then 0 else 1] .none = .ok [0, -1] := by
  decide +kernel

example : renderPixel .alpha 1 twoDiscs 5 5 1 [fun _ => 0, fun _ => 0] (.vector [3]) = .ok [3, 1] := by decide +kernel

end P3D.PointsRender
