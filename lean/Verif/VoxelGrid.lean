/-
Implicitron's voxel grids: `implicitron/models/implicit_function/voxel_grid.py` (full resolution, CP and VM factorized grids, change of resolution,
cropping, `VoxelGridModule`) with the interpolation functions of `implicit_function/utils.py:97-189`.

`F.grid_sample` is the model of `UvSample` (two dimensions) and `Volumes` (three dimensions): both modes, all paddings.  Tensors are functions of their
indices together with their sizes; batches have one grid.  `F.interpolate` is modelled for mode `linear` with `align_corners=True` in one dimension.
Not modelled: `bicubic`, `area`, antialiasing, `crop_self` of planes and volumes (the same function along every axis), state dicts, initialization.
-/
import Mathlib.Algebra.BigOperators.Group.Finset.Basic
import Mathlib.Algebra.BigOperators.Ring.Finset
import Mathlib.Tactic.Linarith
import Mathlib.Tactic.FieldSimp
import Mathlib.Tactic.Ring
import Verif.Volumes

set_option linter.unusedSectionVars false

namespace P3D.VoxelGrid

open Uv Finset
open P3D.T3d (Err)

variable {K : Type} [Field K] [LinearOrder K] [IsStrictOrderedRing K] [FloorRing K]

/-! ### The code: interpolation -/

/-- `interpolate_line` (utils.py:97-127): a map of height one, sampled at y = 0. -/
def interpLine (c : Cfg) (w : Nat) (g : Nat → K) (x : K) : K := Uv.gridSample c ⟨1, w, fun _ j => g j.toNat⟩ x 0

/-- `interpolate_plane` (utils.py:130-158): source indexed by (width, height), permuted. -/
def interpPlane (c : Cfg) (w h : Nat) (g : Nat → Nat → K) (x y : K) : K := Uv.gridSample c ⟨h, w, fun i j => g j.toNat i.toNat⟩ x y

/-- `interpolate_volume` (utils.py:161-189): source indexed by (width, height, depth), permuted. -/
def interpVolume (c : Cfg) (w h d : Nat) (g : Nat → Nat → Nat → K) (p : V3 K) : K :=
  Vol.gridSample c ⟨1, 1, (d, h, w), fun _ _ k j i => g i j k⟩ 0 0 p

/-! ### The code: factorized grids -/

/-- The values of a CP grid (voxel_grid.py:441-446): component, position; `basis` component, feature. -/
structure CP (K : Type) where
  n : Nat
  w : Nat
  h : Nat
  d : Nat
  x : Nat → Nat → K
  y : Nat → Nat → K
  z : Nat → Nat → K
  basis : Option (Nat → Nat → K)

/-- The entry of the basis matrix; without a matrix the components are summed. -/
def weight (b : Option (Nat → Nat → K)) (i f : Nat) : K := match b with | some m => m i f | none => 1

/-- `CPFactorizedVoxelGrid.evaluate_local` (lines 488-523), feature `f`. -/
def evalCP (c : Cfg) (g : CP K) (p : V3 K) (f : Nat) : K :=
  ∑ i ∈ range g.n, interpLine c g.w (g.x i) p.x * interpLine c g.h (g.y i) p.y * interpLine c g.d (g.z i) p.z * weight g.basis i f

/-- The values of a VM grid (lines 577-585): numbers of components of the three pairs. -/
structure VM (K : Type) where
  nxy : Nat
  nyz : Nat
  nxz : Nat
  w : Nat
  h : Nat
  d : Nat
  x : Nat → Nat → K
  y : Nat → Nat → K
  z : Nat → Nat → K
  xy : Nat → Nat → Nat → K
  yz : Nat → Nat → Nat → K
  xz : Nat → Nat → Nat → K
  basis : Option (Nat → Nat → K)

/-- `VMFactorizedVoxelGrid.evaluate_local` (lines 640-700): the components of xy, then of xz, then of yz. -/
def evalVM (c : Cfg) (g : VM K) (p : V3 K) (f : Nat) : K :=
  ∑ i ∈ range g.nxy, interpPlane c g.w g.h (g.xy i) p.x p.y * interpLine c g.d (g.z i) p.z * weight g.basis i f +
  ∑ i ∈ range g.nxz, interpPlane c g.w g.d (g.xz i) p.x p.z * interpLine c g.h (g.y i) p.y * weight g.basis (g.nxy + i) f +
  ∑ i ∈ range g.nyz, interpPlane c g.h g.d (g.yz i) p.y p.z * interpLine c g.w (g.x i) p.x * weight g.basis (g.nxy + g.nxz + i) f

/-- The grids documented (lines 452-457, 592-597, 615-618). -/
def fullCP (g : CP K) (f i j k : Nat) : K := ∑ c ∈ range g.n, g.x c i * g.y c j * g.z c k * weight g.basis c f

def fullVM (g : VM K) (f i j k : Nat) : K :=
  ∑ c ∈ range g.nxy, g.xy c i j * g.z c k * weight g.basis c f +
  ∑ c ∈ range g.nxz, g.xz c i k * g.y c j * weight g.basis (g.nxy + c) f +
  ∑ c ∈ range g.nyz, g.yz c j k * g.x c i * weight g.basis (g.nxy + g.nxz + c) f

/-- The number of components of the three pairs (`get_shapes`, lines 702-733). -/
def components (n : Option Nat) (dist : Option (Nat × Nat × Nat)) (basis : Bool) (features : Nat) : Except Err (Nat × Nat × Nat) :=
  if basis = false ∧ features ≠ 1 then .error .value
  else
    match n, dist with
    | none, none => .error .value
    | some _, some _ => .error .value
    | none, some d => .ok d
    | some n, none => if n % 3 ≠ 0 then .error .value else .ok (n / 3, n / 3, n / 3)

/-! ### The code: resolutions -/

/-- `get_resolution` (lines 138-151): the dictionary as a list of pairs; `none` is a KeyError. -/
def lastChange (keys : List Int) (epoch : Int) : Int := keys.foldl (fun l k => if k ≤ epoch then max l k else l) 0

def getResolution {R : Type} (ch : List (Int × R)) (epoch : Int) : Option R := ch.lookup (lastChange (ch.map Prod.fst) epoch)

/-- `F.interpolate(mode='linear', align_corners=True)` from size `n` to size `m`. -/
def resize (n m : Nat) (g : Nat → K) (j : Nat) : K :=
  let u : K := if m ≤ 1 then 0 else j * (((n : K) - 1) / ((m : K) - 1))
  let i := ⌊u⌋.toNat
  let l := u - i
  (1 - l) * g i + l * g (if i + 1 < n then i + 1 else i)

/-! ### The code: cropping -/

/-- A slice `[a:b]` of a dimension of size `n`: first index and length. -/
def pySlice (n : Nat) (a b : Int) : Nat × Nat :=
  let f : Int → Nat := fun i => if i < 0 then (i + n).toNat else min i.toNat n
  (f a, f b - f a)

/-- Bounds of `crop_local` along one axis (lines 417-431, 547-561, 775-789). -/
def cropBounds (align : Bool) (n : Nat) (lo hi : K) : Int × Int :=
  let lo01 := (min (max lo (-1)) 1 + 1) / 2
  let hi01 := (min (max hi (-1)) 1 + 1) / 2
  if align then (⌊lo01 * ((n : K) - 1)⌋, ⌈hi01 * ((n : K) - 1)⌉) else (⌊lo01 * n - 1 / 2⌋, ⌈hi01 * n - 1 / 2⌉)

/-- `crop_local` along one axis: first index kept and new size. -/
def crop (align : Bool) (n : Nat) (lo hi : K) : Nat × Nat :=
  pySlice n (cropBounds align n lo hi).1 ((cropBounds align n lo hi).2 + 1)

/-- `crop_self` (lines 983-1020) for one vector component: cropped and resized to the old size. -/
def cropSelf (align : Bool) (n : Nat) (lo hi : K) (g : Nat → K) : Nat → K :=
  let s := crop align n lo hi
  resize s.2 n fun i => g (s.1 + i)

/-! ### The code: positions -/

/-- `_get_volume_locator` (lines 1022-1048). -/
def locator (ext tr : V3 K) : Vol.Xf K := Vol.mkXf (2, 2, 2) ext ⟨-tr.x, -tr.y, -tr.z⟩

/-- One axis of `get_grid_points` (lines 1063-1085): `xres` is the resolution in x for all axes. -/
def gridAxis (align : Bool) (ext : K) (xres res k : Nat) : K :=
  let w := if align then ext else if 1 < xres then ext * ((xres : K) - 1) / xres else ext
  Vol.linspace (-w / 2) (w / 2) res k

/-- `get_grid_points`; `tr` is not used. -/
def gridPoint (align : Bool) (ext : V3 K) (_tr : V3 K) (rx ry rz i j k : Nat) : V3 K :=
  ⟨gridAxis align ext.x rx rx i, gridAxis align ext.y rx ry j, gridAxis align ext.z rx rz k⟩

/-! ### Specification -/

/-- Values along an axis, zero outside. -/
def cut (n : Nat) (g : Nat → K) (i : Int) : K := if 0 ≤ i ∧ i < n then g i.toNat else 0

/-- The coordinate of `grid_sample`. -/
def coord (c : Cfg) (n : Nat) (x : K) : K := padCoord c.align c.pad n (unnorm c.align n x)

theorem along_mul (m : Mode) (g : Int → K) (a x : K) : along m (fun i => g i * a) x = along m g x * a := by
  cases m
  · simp only [along, Uv.lin]
    ring
  · rfl

theorem along_mul_left (m : Mode) (g : Int → K) (a x : K) : along m (fun i => a * g i) x = a * along m g x := by
  simp only [mul_comm a]
  exact along_mul m g a x

theorem along_add (m : Mode) (g h : Int → K) (x : K) : along m (fun i => g i + h i) x = along m g x + along m h x := by
  cases m
  · simp only [along, Uv.lin]
    ring
  · rfl

theorem along_zero (m : Mode) (x : K) : along m (fun _ => (0 : K)) x = 0 := by
  cases m <;> simp [along, Uv.lin]

theorem along_sum (m : Mode) (s : Finset Nat) (g : Nat → Int → K) (x : K) : along m (fun i => ∑ c ∈ s, g c i) x = ∑ c ∈ s, along m (g c) x := by
  classical
  induction s using Finset.induction_on with
  | empty => simpa using along_zero m x
  | insert a s ha ih =>
    simp only [Finset.sum_insert ha]
    rw [along_add, ih]

theorem coord_one (c : Cfg) : coord c 1 (0 : K) = ((0 : Int) : K) := by
  have h : unnorm c.align ((1 : Nat) : Int) (0 : K) = 0 := by
    unfold unnorm
    split <;> norm_num
  rw [coord, h, Uv.padCoord_id c.align c.pad (le_refl _) (by norm_num)]
  norm_num

/-- Interpolation of a line is interpolation along one axis, in all modes, paddings and alignments. -/
theorem line_along (c : Cfg) (w : Nat) (g : Nat → K) (x : K) : interpLine c w g x = along c.mode (cut w g) (coord c w x) := by
  rw [interpLine, Uv.gridSample_eq]
  have h1 := coord_one (K := K) c
  rw [coord] at h1
  show along c.mode _ (padCoord c.align c.pad ((1 : Nat) : Int) (unnorm c.align ((1 : Nat) : Int) 0)) = _
  rw [h1, Vol.along_int]
  congr 1
  funext j
  simp only [texel, cut]
  congr 1
  simp

theorem plane_along (c : Cfg) (w h : Nat) (g : Nat → Nat → K) (x y : K) :
    interpPlane c w h g x y = along c.mode (fun j => along c.mode (fun i => if (0 ≤ i ∧ i < w) ∧ (0 ≤ j ∧ j < h) then g i.toNat j.toNat else 0) (coord c w x)) (coord c h y) := by
  rw [interpPlane, Uv.gridSample_eq]
  show along c.mode _ (coord c h y) = _
  congr 1
  funext j
  show along c.mode _ (coord c w x) = _
  congr 1
  funext i
  simp only [texel]
  refine if_congr ?_ rfl rfl
  tauto

theorem volume_along (c : Cfg) (w h d : Nat) (g : Nat → Nat → Nat → K) (p : V3 K) :
    interpVolume c w h d g p = along c.mode (fun k => along c.mode (fun j => along c.mode (fun i =>
      if (0 ≤ i ∧ i < w) ∧ (0 ≤ j ∧ j < h) ∧ (0 ≤ k ∧ k < d) then g i.toNat j.toNat k.toNat else 0) (coord c w p.x)) (coord c h p.y)) (coord c d p.z) := by
  rw [interpVolume, Vol.gridSample_eq]
  show along c.mode _ (coord c d p.z) = _
  congr 1
  funext k
  show along c.mode _ (coord c h p.y) = _
  congr 1
  funext j
  show along c.mode _ (coord c w p.x) = _
  congr 1
  funext i
  simp only [Vol.voxel]
  refine if_congr ?_ rfl rfl
  tauto

theorem cut_mul3 (w h d : Nat) (a b c : Nat → K) (i j k : Int) (q : K) :
    (if (0 ≤ i ∧ i < w) ∧ (0 ≤ j ∧ j < h) ∧ (0 ≤ k ∧ k < d) then a i.toNat * b j.toNat * c k.toNat * q else 0) = cut w a i * cut h b j * cut d c k * q := by
  unfold cut
  by_cases h1 : 0 ≤ i ∧ i < (w : Int) <;> by_cases h2 : 0 ≤ j ∧ j < (h : Int) <;> by_cases h3 : 0 ≤ k ∧ k < (d : Int) <;> simp [h1, h2, h3]

theorem ite_sum (P : Prop) [Decidable P] (s : Finset Nat) (g : Nat → K) : (if P then ∑ c ∈ s, g c else 0) = ∑ c ∈ s, if P then g c else 0 := by
  split
  · rfl
  · simp

/-- Evaluating a CP grid is evaluating the full grid `x0 ⊗ y0 ⊗ z0 + ...` times the basis, in all modes, paddings and alignments, for points anywhere. -/
theorem cp_full (c : Cfg) (g : CP K) (p : V3 K) (f : Nat) : evalCP c g p f = interpVolume c g.w g.h g.d (fullCP g f) p := by
  rw [volume_along]
  simp only [fullCP, ite_sum, cut_mul3]
  simp only [along_sum]
  apply Finset.sum_congr rfl
  intro i _
  rw [line_along, line_along, line_along]
  simp only [along_mul, along_mul_left]

/-- Evaluating a VM grid is evaluating the full grid `xy ⊗ z + xz ⊗ y + yz ⊗ x` times the basis (components in this order). -/
theorem vm_full (c : Cfg) (g : VM K) (p : V3 K) (f : Nat) : evalVM c g p f = interpVolume c g.w g.h g.d (fullVM g f) p := by
  rw [volume_along]
  have split3 : ∀ i j k : Int, (if (0 ≤ i ∧ i < (g.w : Int)) ∧ (0 ≤ j ∧ j < (g.h : Int)) ∧ (0 ≤ k ∧ k < (g.d : Int)) then fullVM g f i.toNat j.toNat k.toNat else 0) =
      ∑ c ∈ range g.nxy, (if (0 ≤ i ∧ i < (g.w : Int)) ∧ (0 ≤ j ∧ j < (g.h : Int)) then g.xy c i.toNat j.toNat else 0) * (cut g.d (g.z c) k * weight g.basis c f) +
      ∑ c ∈ range g.nxz, (if (0 ≤ i ∧ i < (g.w : Int)) ∧ (0 ≤ k ∧ k < (g.d : Int)) then g.xz c i.toNat k.toNat else 0) * (cut g.h (g.y c) j * weight g.basis (g.nxy + c) f) +
      ∑ c ∈ range g.nyz, (if (0 ≤ j ∧ j < (g.h : Int)) ∧ (0 ≤ k ∧ k < (g.d : Int)) then g.yz c j.toNat k.toNat else 0) * (cut g.w (g.x c) i * weight g.basis (g.nxy + g.nxz + c) f) := by
    intro i j k
    unfold fullVM cut
    by_cases h1 : 0 ≤ i ∧ i < (g.w : Int) <;> by_cases h2 : 0 ≤ j ∧ j < (g.h : Int) <;> by_cases h3 : 0 ≤ k ∧ k < (g.d : Int) <;> simp [h1, h2, h3, mul_assoc]
  simp only [split3, along_add, along_sum]
  unfold evalVM
  congr 1
  · congr 1
    · apply Finset.sum_congr rfl
      intro i _
      rw [line_along, plane_along]
      simp only [along_mul, along_mul_left]
      ring
    · apply Finset.sum_congr rfl
      intro i _
      rw [line_along, plane_along]
      simp only [← mul_assoc, along_mul, along_mul_left]
  · apply Finset.sum_congr rfl
    intro i _
    rw [line_along, plane_along]
    simp only [along_mul, along_mul_left]
    ring

/-- The components of the three pairs add up to the number asked for, and all must be given in exactly one way. -/
theorem components_spec (n : Option Nat) (dist : Option (Nat × Nat × Nat)) (basis : Bool) (features : Nat) (d : Nat × Nat × Nat) :
    components n dist basis features = .ok d ↔ (basis = false → features = 1) ∧ ((n = none ∧ dist = some d) ∨ (dist = none ∧ n = some (d.1 + d.2.1 + d.2.2) ∧ d.1 = d.2.1 ∧ d.2.1 = d.2.2)) := by
  unfold components
  by_cases hb : basis = false ∧ features ≠ 1
  · rw [if_pos hb]
    simp only [reduceCtorEq, false_iff, not_and]
    intro h
    exact absurd (h hb.1) hb.2
  · rw [if_neg hb]
    have hb' : basis = false → features = 1 := fun h => by
      by_contra hne
      exact hb ⟨h, hne⟩
    obtain ⟨d0, d1, d2⟩ := d
    cases n with
    | none =>
      cases dist with
      | none => simp
      | some e => simpa using fun _ => hb'
    | some n =>
      cases dist with
      | some e => simp
      | none =>
        simp only [reduceCtorEq, false_and, true_and, false_or, Option.some.injEq]
        by_cases h3 : n % 3 ≠ 0
        · rw [if_pos h3]
          simp only [reduceCtorEq, false_iff, not_and]
          intro _ h _
          omega
        · rw [if_neg h3]
          simp only [Except.ok.injEq, Prod.mk.injEq]
          constructor
          · rintro ⟨rfl, rfl, rfl⟩
            exact ⟨hb', by omega, rfl, rfl⟩
          · rintro ⟨-, h, h1, h2⟩
            omega

/-! ### Resolutions -/

theorem lastChange_foldl (keys : List Int) (epoch l : Int) : keys.foldl (fun l k => if k ≤ epoch then max l k else l) l =
    (keys.filter fun k => decide (k ≤ epoch)).foldl max l := by
  induction keys generalizing l with
  | nil => rfl
  | cons k ks ih =>
    rw [List.foldl_cons, ih]
    by_cases h : k ≤ epoch
    · rw [if_pos h, List.filter_cons_of_pos (by simpa using h), List.foldl_cons]
    · rw [if_neg h, List.filter_cons_of_neg (by simpa using h)]

theorem foldl_max_ge (l : List Int) (a : Int) : a ≤ l.foldl max a ∧ (∀ x ∈ l, x ≤ l.foldl max a) ∧ (l.foldl max a = a ∨ l.foldl max a ∈ l) := by
  induction l generalizing a with
  | nil => simp
  | cons b l ih =>
    obtain ⟨h1, h2, h3⟩ := ih (max a b)
    rw [List.foldl_cons]
    refine ⟨by omega, ?_, ?_⟩
    · intro x hx
      rcases List.mem_cons.mp hx with rfl | hx
      · omega
      · exact h2 x hx
    · rcases h3 with h3 | h3
      · rcases max_choice a b with h | h <;> rw [h] at h3 ⊢
        · exact Or.inl h3
        · exact Or.inr (List.mem_cons.mpr (Or.inl h3))
      · exact Or.inr (List.mem_cons_of_mem _ h3)

/-- The resolution at an epoch is that of the last change at or before it. -/
theorem resolution_spec {R : Type} (ch : List (Int × R)) (epoch : Int) (h0 : 0 ∈ ch.map Prod.fst) (he : 0 ≤ epoch) :
    ∃ k r, k ≤ epoch ∧ getResolution ch epoch = some r ∧ (k, r) ∈ ch ∧ ∀ k' ∈ ch.map Prod.fst, k' ≤ epoch → k' ≤ k := by
  obtain ⟨h1, h2, h3⟩ := foldl_max_ge ((ch.map Prod.fst).filter fun k => decide (k ≤ epoch)) 0
  have e : lastChange (ch.map Prod.fst) epoch = ((ch.map Prod.fst).filter fun k => decide (k ≤ epoch)).foldl max 0 := lastChange_foldl _ _ _
  have hk : lastChange (ch.map Prod.fst) epoch ∈ ch.map Prod.fst ∧ lastChange (ch.map Prod.fst) epoch ≤ epoch := by
    rw [e]
    rcases h3 with h3 | h3
    · rw [h3]
      exact ⟨h0, he⟩
    · have := List.mem_filter.mp h3
      exact ⟨this.1, by simpa using this.2⟩
  have hlook : ∀ (l : List (Int × R)) (k : Int), k ∈ l.map Prod.fst → ∃ r, l.lookup k = some r ∧ (k, r) ∈ l := by
    intro l k hk
    induction l with
    | nil => simp at hk
    | cons a l ih =>
      obtain ⟨a1, a2⟩ := a
      by_cases hka : k = a1
      · subst hka
        exact ⟨a2, by simp [List.lookup], List.mem_cons_self⟩
      · have hk' : k ∈ l.map Prod.fst := by
          simp only [List.map_cons, List.mem_cons] at hk
          exact hk.resolve_left hka
        obtain ⟨r, hr, hm⟩ := ih hk'
        exact ⟨r, by rw [List.lookup_cons, beq_false_of_ne hka]; exact hr, List.mem_cons_of_mem _ hm⟩
  obtain ⟨r, hr, hm⟩ := hlook ch _ hk.1
  refine ⟨_, r, hk.2, hr, hm, ?_⟩
  intro k' hk' hle
  rw [e]
  exact h2 k' (List.mem_filter.mpr ⟨hk', by simpa using hle⟩)

/-! ### Change of resolution -/

/-- A coordinate in the range of the indices: linear interpolation between two values of the tensor. -/
theorem lin_cut (n : Nat) (g : Nat → K) (u : K) (h0 : 0 ≤ u) (h1 : u ≤ (n : K) - 1) (_hn : 0 < n) :
    along .bilinear (cut n g) u = (1 - (u - (⌊u⌋.toNat : K))) * g ⌊u⌋.toNat + (u - (⌊u⌋.toNat : K)) * g (if ⌊u⌋.toNat + 1 < n then ⌊u⌋.toNat + 1 else ⌊u⌋.toNat) := by
  obtain ⟨i, hi⟩ := Int.eq_ofNat_of_zero_le (Int.floor_nonneg.mpr h0)
  have hin : i < n := by
    have : (⌊u⌋ : K) ≤ (n : K) - 1 := le_trans (Int.floor_le u) h1
    rw [hi] at this
    have h2 : (i : K) < n := by push_cast at this; linarith
    exact_mod_cast h2
  have e0 : cut n g ⌊u⌋ = g i := by
    rw [hi, cut, if_pos ⟨by omega, by exact_mod_cast hin⟩]
    simp
  have hcast : ((⌊u⌋ : Int) : K) = (i : K) := by rw [hi]; push_cast; rfl
  simp only [along, Uv.lin]
  rw [e0, hcast, hi, Int.toNat_natCast]
  by_cases h : i + 1 < n
  · rw [if_pos h, show cut n g (↑i + 1) = g (i + 1) by
      rw [cut, if_pos ⟨by omega, by omega⟩]
      congr 1]
  · rw [if_neg h]
    have hu : u = i := by
      have h2 : (i : K) + 1 = n := by exact_mod_cast (by omega : i + 1 = n)
      have h3 := Int.floor_le u
      rw [hcast] at h3
      exact le_antisymm (by linarith) h3
    rw [hu]
    ring

/-- A resized vector has, at each of its entries, the value of the old one at the corresponding position. -/
theorem resize_node (n m : Nat) (hn : 0 < n) (g : Nat → K) (j : Nat) (hj : j < m) (hm : 1 < m) :
    resize n m g j = along .bilinear (cut n g) ((j : K) * (((n : K) - 1) / ((m : K) - 1))) := by
  have hm' : (0 : K) < (m : K) - 1 := by
    have : (1 : K) < m := by exact_mod_cast hm
    linarith
  have hn' : (0 : K) ≤ (n : K) - 1 := by
    have : (1 : K) ≤ n := by exact_mod_cast hn
    linarith
  have hjm : (j : K) ≤ (m : K) - 1 := by
    have : (j : K) + 1 ≤ m := by exact_mod_cast hj
    linarith
  have h0 : (0 : K) ≤ (j : K) * (((n : K) - 1) / ((m : K) - 1)) := by positivity
  have h1 : (j : K) * (((n : K) - 1) / ((m : K) - 1)) ≤ (n : K) - 1 := by
    rw [mul_div_assoc', div_le_iff₀ hm', mul_comm]
    exact mul_le_mul_of_nonneg_left hjm hn'
  rw [lin_cut n g _ h0 h1 hn]
  simp only [resize, if_neg (not_le.mpr hm)]

/-- The same size: nothing changes (so basis matrices, which are resized along their features, keep their values). -/
theorem resize_same (n : Nat) (hn : 0 < n) (g : Nat → K) (j : Nat) (hj : j < n) : resize n n g j = g j := by
  by_cases h1 : 1 < n
  · have hne : (n : K) - 1 ≠ 0 := by
      have : (1 : K) < n := by exact_mod_cast h1
      linarith
    rw [resize_node n n hn g j hj h1, div_self hne, mul_one, show (j : K) = ((j : Int) : K) by push_cast; rfl, Vol.along_int, cut,
      if_pos ⟨by omega, by exact_mod_cast hj⟩]
    simp
  · have hn1 : n = 1 := by omega
    subst hn1
    have hj0 : j = 0 := by omega
    subst hj0
    simp [resize]

theorem lin_between (n : Nat) (g : Nat → K) (i : Nat) (hi : i + 1 < n) (u : K) (h0 : (i : K) ≤ u) (h1 : u ≤ (i : K) + 1) :
    along .bilinear (cut n g) u = (1 - (u - i)) * g i + (u - i) * g (i + 1) := by
  rcases lt_or_eq_of_le h1 with h | h
  · have hf : ⌊u⌋ = (i : Int) := by
      rw [Int.floor_eq_iff]
      push_cast
      exact ⟨h0, h⟩
    have hin : (i : K) + 1 ≤ (n : K) - 1 := by
      have : (i : K) + 1 + 1 ≤ n := by exact_mod_cast hi
      linarith
    rw [lin_cut n g u (le_trans (by positivity) h0) (by linarith) (by omega), hf, Int.toNat_natCast, if_pos hi]
  · rw [h, show (i : K) + 1 = (((i + 1 : Nat) : Int) : K) by push_cast; ring, Vol.along_int, cut, if_pos ⟨by omega, by exact_mod_cast hi⟩]
    push_cast
    simp

/-- Refinement by a whole factor leaves the function represented by the grid unchanged, at all points inside. -/
theorem refine_same (n k : Nat) (hn : 1 < n) (hk : 0 < k) (g : Nat → K) (x : K) (h0 : -1 ≤ x) (h1 : x ≤ 1) :
    along .bilinear (cut (k * (n - 1) + 1) (resize n (k * (n - 1) + 1) g)) (unnorm true ((k * (n - 1) + 1 : Nat) : Int) x) =
      along .bilinear (cut n g) (unnorm true (n : Int) x) := by
  obtain ⟨q, rfl⟩ : ∃ q, n = q + 2 := ⟨n - 2, by omega⟩
  have hk' : (0 : K) < k := by exact_mod_cast hk
  have e1 : q + 2 - 1 = q + 1 := by omega
  rw [e1]
  generalize hm : k * (q + 1) + 1 = m
  have hmK : (m : K) - 1 = k * ((q : K) + 1) := by rw [← hm]; push_cast; ring
  have hm1 : 1 < m := by
    have : 0 < k * (q + 1) := by positivity
    omega
  have hv : unnorm true ((q + 2 : Nat) : Int) x = (x + 1) / 2 * ((q : K) + 1) := by
    simp only [unnorm, if_true]
    push_cast
    ring
  have hu : unnorm true (m : Int) x = k * ((x + 1) / 2 * ((q : K) + 1)) := by
    simp only [unnorm, if_true]
    push_cast
    rw [hmK]
    ring
  rw [hv, hu]
  have hv0 : 0 ≤ (x + 1) / 2 * ((q : K) + 1) := mul_nonneg (by linarith) (by positivity)
  have hv1 : (x + 1) / 2 * ((q : K) + 1) ≤ (q : K) + 1 := by
    have h2 : (x + 1) / 2 ≤ 1 := by linarith
    exact mul_le_of_le_one_left (by positivity) h2
  generalize (x + 1) / 2 * ((q : K) + 1) = v at *
  -- the interval of the fine grid
  have hj : ∃ j : Nat, j + 1 < m ∧ (j : K) ≤ k * v ∧ k * v ≤ (j : K) + 1 := by
    by_cases hlast : k * v = (m : K) - 1
    · refine ⟨m - 2, by omega, ?_, ?_⟩
      · rw [hlast, Nat.cast_sub (by omega)]
        push_cast
        linarith
      · rw [hlast, Nat.cast_sub (by omega)]
        push_cast
        linarith
    · have hkv : 0 ≤ (k : K) * v := by positivity
      obtain ⟨j, hj⟩ := Int.eq_ofNat_of_zero_le (Int.floor_nonneg.mpr hkv)
      have h2 := Int.floor_le ((k : K) * v)
      have h3 := Int.lt_floor_add_one ((k : K) * v)
      rw [hj] at h2 h3
      push_cast at h2 h3
      refine ⟨j, ?_, h2, h3.le⟩
      have h4 : (k : K) * v < (m : K) - 1 := by
        refine lt_of_le_of_ne ?_ hlast
        rw [hmK]
        exact mul_le_mul_of_nonneg_left hv1 hk'.le
      have h5 : (j : K) + 1 < m := by linarith
      exact_mod_cast h5
  obtain ⟨j, hjm, hj0, hj1⟩ := hj
  -- the interval of the coarse grid
  have hi1 : (j / k : Nat) * k ≤ j := Nat.div_mul_le_self j k
  have hi2 : j + 1 ≤ (j / k + 1) * k := Nat.lt_mul_of_div_lt (Nat.lt_succ_self _) hk
  generalize hidef : j / k = i at hi1 hi2
  have hiq : i + 1 < q + 2 := by
    have : i * k < (q + 1) * k := by
      have h6 : j < k * (q + 1) := by omega
      calc i * k ≤ j := hi1
        _ < k * (q + 1) := h6
        _ = (q + 1) * k := by ring
    have := Nat.lt_of_mul_lt_mul_right this
    omega
  have hi1' : (i : K) * k ≤ j := by exact_mod_cast hi1
  have hi2' : (j : K) + 1 ≤ ((i : K) + 1) * k := by exact_mod_cast hi2
  have hscale : (((q + 2 : Nat) : K) - 1) / ((m : K) - 1) = 1 / k := by
    rw [hmK]
    push_cast
    field_simp
    ring
  have low : ∀ t : K, (i : K) * k ≤ t → (i : K) ≤ t * (1 / k) := by
    intro t ht
    rw [mul_one_div, le_div_iff₀ hk']
    exact ht
  have high : ∀ t : K, t ≤ ((i : K) + 1) * k → t * (1 / k) ≤ (i : K) + 1 := by
    intro t ht
    rw [mul_one_div, div_le_iff₀ hk']
    exact ht
  have hjnext : ((j + 1 : Nat) : K) = (j : K) + 1 := by push_cast; ring
  rw [lin_between m _ j hjm (k * v) hj0 hj1, resize_node (q + 2) m (by omega) g j (by omega) hm1, resize_node (q + 2) m (by omega) g (j + 1) hjm hm1, hscale,
    lin_between (q + 2) g i hiq _ (low _ hi1') (high _ (by linarith)), hjnext, lin_between (q + 2) g i hiq _ (low _ (by linarith)) (high _ hi2'),
    lin_between (q + 2) g i hiq v]
  · field_simp
    ring
  · have := low (k * v) (by linarith)
    rwa [mul_one_div, mul_div_cancel_left₀ _ hk'.ne'] at this
  · have := high (k * v) (by linarith)
    rwa [mul_one_div, mul_div_cancel_left₀ _ hk'.ne'] at this

/-! ### Cropping -/

theorem clamp_id (x : K) (h0 : -1 ≤ x) (h1 : x ≤ 1) : min (max x (-1)) 1 = x := by rw [max_eq_left h0, min_eq_left h1]

/-- With `align_corners` the kept range is the smallest one of whole voxels that holds both points. -/
theorem crop_range (n : Nat) (hn : 0 < n) (lo hi : K) (h0 : -1 ≤ lo) (h01 : lo ≤ hi) (h1 : hi ≤ 1) :
    ∃ a b : Nat, a ≤ b ∧ b < n ∧ crop true n lo hi = (a, b + 1 - a) ∧ ⌊unnorm true (n : Int) lo⌋ = (a : Int) ∧ ⌈unnorm true (n : Int) hi⌉ = (b : Int) := by
  have hn' : (0 : K) ≤ (n : K) - 1 := by
    have : (1 : K) ≤ n := by exact_mod_cast hn
    linarith
  have el : (lo + 1) / 2 * ((n : K) - 1) = unnorm true (n : Int) lo := by simp [unnorm]
  have eh : (hi + 1) / 2 * ((n : K) - 1) = unnorm true (n : Int) hi := by simp [unnorm]
  have hl0 : 0 ≤ unnorm true (n : Int) lo := by rw [← el]; exact mul_nonneg (by linarith) hn'
  have hlh : unnorm true (n : Int) lo ≤ unnorm true (n : Int) hi := by
    rw [← el, ← eh]
    exact mul_le_mul_of_nonneg_right (by linarith) hn'
  have hh1 : unnorm true (n : Int) hi ≤ ((n - 1 : Nat) : K) := by
    rw [← eh, Nat.cast_sub hn]
    push_cast
    exact mul_le_of_le_one_left hn' (by linarith)
  obtain ⟨a, ha⟩ := Int.eq_ofNat_of_zero_le (Int.floor_nonneg.mpr hl0)
  obtain ⟨b, hb⟩ := Int.eq_ofNat_of_zero_le (Int.ceil_nonneg (le_trans hl0 hlh))
  have hab : a ≤ b := by
    have : ⌊unnorm true (n : Int) lo⌋ ≤ ⌈unnorm true (n : Int) hi⌉ := le_trans (Int.floor_le_ceil _) (Int.ceil_mono hlh)
    rw [ha, hb] at this
    exact_mod_cast this
  have hbn : b < n := by
    have : ⌈unnorm true (n : Int) hi⌉ ≤ ((n - 1 : Nat) : Int) := Int.ceil_le.mpr (by push_cast; exact_mod_cast hh1)
    rw [hb] at this
    omega
  refine ⟨a, b, hab, hbn, ?_, ha, hb⟩
  simp only [crop, cropBounds, if_true, clamp_id lo h0 (le_trans h01 h1), clamp_id hi (le_trans h0 h01) h1, el, eh, ha, hb, pySlice]
  rw [if_neg (by omega), if_neg (by omega)]
  simp only [Prod.mk.injEq]
  omega

/-- A shift of the indices. -/
theorem lin_shift (f g : Int → K) (a : Int) (u : K) (h : ∀ i : Int, ⌊u⌋ ≤ i → (i : K) < u + 1 → f i = g (i - a)) : along .bilinear f u = along .bilinear g (u - a) := by
  simp only [along, Uv.lin, Int.floor_sub_intCast]
  rw [h ⌊u⌋ le_rfl (by have := Int.floor_le u; linarith)]
  by_cases hu : u = ⌊u⌋
  · have e : u - (⌊u⌋ : K) = 0 := by linarith
    have e2 : u - (a : K) - ((⌊u⌋ - a : Int) : K) = 0 := by push_cast; linarith
    rw [e, e2]
    ring
  · have hlt : (⌊u⌋ : K) < u := lt_of_le_of_ne (Int.floor_le u) (Ne.symm hu)
    rw [h (⌊u⌋ + 1) (by omega) (by push_cast; linarith), show ⌊u⌋ + 1 - a = ⌊u⌋ - a + 1 by ring]
    push_cast
    ring

/-- Cropping keeps everything that is needed between the two points: the interpolated values are the same, at coordinates counted from the first voxel kept. -/
theorem crop_keeps (n : Nat) (hn : 0 < n) (lo hi : K) (h0 : -1 ≤ lo) (h1 : hi ≤ 1) (g : Nat → K) (x : K) (hx0 : lo ≤ x) (hx1 : x ≤ hi) :
    along .bilinear (cut n g) (unnorm true (n : Int) x) =
      along .bilinear (cut (crop true n lo hi).2 fun i => g ((crop true n lo hi).1 + i)) (unnorm true (n : Int) x - (crop true n lo hi).1) := by
  obtain ⟨a, b, hab, hbn, hc, ha, hb⟩ := crop_range n hn lo hi h0 (le_trans hx0 hx1) h1
  have hn' : (0 : K) ≤ (n : K) - 1 := by
    have : (1 : K) ≤ n := by exact_mod_cast hn
    linarith
  have mono : ∀ s t : K, s ≤ t → unnorm true (n : Int) s ≤ unnorm true (n : Int) t := by
    intro s t hst
    simp only [unnorm, if_true]
    push_cast
    exact mul_le_mul_of_nonneg_right (by linarith) hn'
  rw [hc]
  dsimp only
  have := lin_shift (cut n g) (cut (b + 1 - a) fun i => g (a + i)) (a : Int) (unnorm true (n : Int) x) ?_
  · rw [this]
    push_cast
    rfl
  · intro i hi1 hi2
    have hia : (a : Int) ≤ i := by
      have := Int.floor_mono (mono _ _ hx0)
      rw [ha] at this
      omega
    have hib : i ≤ b := by
      have h3 : unnorm true (n : Int) x ≤ (b : K) := by
        have h4 := Int.le_ceil (unnorm true (n : Int) hi)
        rw [hb] at h4
        exact le_trans (mono _ _ hx1) (by exact_mod_cast h4)
      have h5 : (i : K) < ((b + 1 : Int) : K) := by push_cast; linarith
      have : i < (b : Int) + 1 := by exact_mod_cast h5
      omega
    unfold cut
    rw [if_pos (by omega), if_pos (by omega)]
    congr 1
    omega

/-- Cropping the factors is cropping the full grid. -/
theorem crop_cp (g : CP K) (sx sy sz : Nat × Nat) (f i j k : Nat) :
    fullCP { g with w := sx.2, h := sy.2, d := sz.2, x := fun c i => g.x c (sx.1 + i), y := fun c i => g.y c (sy.1 + i), z := fun c i => g.z c (sz.1 + i) } f i j k =
      fullCP g f (sx.1 + i) (sy.1 + j) (sz.1 + k) := rfl

/-- Without `align_corners`, cropping to the whole grid keeps only its last voxel along every axis: the lower bound is -1, which counts from the end. -/
theorem crop_unaligned (n : Nat) (hn : 0 < n) : crop false n (-1 : K) 1 = (n - 1, 1) := by
  have e1 : ⌊(min (max (-1 : K) (-1)) 1 + 1) / 2 * (n : K) - 1 / 2⌋ = -1 := by
    rw [clamp_id (-1 : K) le_rfl (by norm_num), Int.floor_eq_iff]
    norm_num
  have e2 : ⌈(min (max (1 : K) (-1)) 1 + 1) / 2 * (n : K) - 1 / 2⌉ = n := by
    rw [clamp_id (1 : K) (by norm_num) le_rfl, Int.ceil_eq_iff]
    constructor
    · push_cast
      linarith
    · push_cast
      linarith
  simp only [crop, cropBounds, Bool.false_eq_true, if_false, e1, e2, pySlice]
  rw [if_pos (by omega), if_neg (by omega)]
  simp only [Prod.mk.injEq]
  omega

/-! ### `crop_self` -/

/-- After `crop_self` the grid has, at its entry `j`, the value of the old grid at a position between the first and the last voxel kept. -/
theorem cropSelf_node (n : Nat) (hn : 1 < n) (lo hi : K) (h0 : -1 ≤ lo) (h01 : lo ≤ hi) (h1 : hi ≤ 1) (g : Nat → K) (j : Nat) (hj : j < n) :
    cropSelf true n lo hi g j = along .bilinear (cut n g) ((⌊unnorm true (n : Int) lo⌋ : K) +
      (j : K) / ((n : K) - 1) * ((⌈unnorm true (n : Int) hi⌉ : K) - ⌊unnorm true (n : Int) lo⌋)) := by
  obtain ⟨a, b, hab, hbn, hc, ha, hb⟩ := crop_range n (by omega) lo hi h0 h01 h1
  have hn' : (0 : K) < (n : K) - 1 := by
    have : (1 : K) < n := by exact_mod_cast hn
    linarith
  have hjn : (j : K) / ((n : K) - 1) ≤ 1 := by
    rw [div_le_one hn']
    have : (j : K) + 1 ≤ n := by exact_mod_cast hj
    linarith
  have hj0 : 0 ≤ (j : K) / ((n : K) - 1) := by positivity
  have habK : (0 : K) ≤ (b : K) - a := by
    have : (a : K) ≤ b := by exact_mod_cast hab
    linarith
  simp only [cropSelf, hc]
  rw [resize_node (b + 1 - a) n (by omega) _ j hj hn, ha, hb]
  have ec : (((b + 1 - a : Nat) : K) - 1) = (b : K) - a := by
    rw [Nat.cast_sub (by omega)]
    push_cast
    ring
  rw [ec]
  push_cast
  have key := lin_shift (cut n g) (cut (b + 1 - a) fun i => g (a + i)) (a : Int) ((a : K) + (j : K) / ((n : K) - 1) * ((b : K) - a)) ?_
  · rw [key]
    congr 1
    push_cast
    ring
  · intro i hi1 hi2
    have hia : (a : Int) ≤ i := by
      refine le_trans ?_ hi1
      rw [Int.le_floor]
      push_cast
      have := mul_nonneg hj0 habK
      linarith
    have hib : i ≤ b := by
      have h3 : (j : K) / ((n : K) - 1) * ((b : K) - a) ≤ (b : K) - a := mul_le_of_le_one_left habK hjn
      have h5 : (i : K) < ((b + 1 : Int) : K) := by push_cast; linarith
      have : i < (b : Int) + 1 := by exact_mod_cast h5
      omega
    unfold cut
    rw [if_pos (by omega), if_pos (by omega)]
    congr 1
    omega

/-- The point of the world that entry `j` stands for afterwards, in old local coordinates: extents and translation are set from the points, not from the voxels kept. -/
def newPoint (n : Nat) (lo hi : K) (j : Nat) : K := lo + (j : K) / ((n : K) - 1) * (hi - lo)

/-- So `crop_self` keeps the values at its entries if both points lie on voxels ... -/
theorem cropSelf_exact (n : Nat) (hn : 1 < n) (lo hi : K) (h0 : -1 ≤ lo) (h01 : lo ≤ hi) (h1 : hi ≤ 1) (g : Nat → K) (j : Nat) (hj : j < n)
    (a b : Int) (ha : unnorm true (n : Int) lo = a) (hb : unnorm true (n : Int) hi = b) :
    cropSelf true n lo hi g j = along .bilinear (cut n g) (unnorm true (n : Int) (newPoint n lo hi j)) := by
  rw [cropSelf_node n hn lo hi h0 h01 h1 g j hj, ha, hb, Int.floor_intCast, Int.ceil_intCast, ← ha, ← hb]
  congr 1
  simp only [unnorm, if_true, newPoint]
  push_cast
  ring

/-! ### Positions -/

/-- World to local coordinates: the extents span [-1, 1] around the translation. -/
theorem locator_local (ext tr p : V3 K) (hx : ext.x ≠ 0) (hy : ext.y ≠ 0) (hz : ext.z ≠ 0) :
    (locator ext tr).inv.map (fun f => f.apply p) = some ⟨(p.x - tr.x) / (ext.x / 2), (p.y - tr.y) / (ext.y / 2), (p.z - tr.z) / (ext.z / 2)⟩ := by
  have h : (locator ext tr) = ⟨⟨ext.x / 2, ext.y / 2, ext.z / 2⟩, tr⟩ := by
    simp only [locator, Vol.mkXf]
    norm_num
    ring_nf
    simp
  rw [h]
  simp only [Vol.Xf.inv]
  rw [if_neg (by simp [hx, hy, hz])]
  simp only [Option.map_some, Option.some.injEq, Vol.Xf.apply]
  ext <;> simp only <;> field_simp <;> ring

/-- `get_grid_points` with `align_corners`, along one axis: the coordinate of voxel `k` in a volume around 0; a translation is not added. -/
theorem gridAxis_aligned (ext : K) (hext : ext ≠ 0) (xres res k : Nat) (hres : 1 < res) :
    unnorm true (res : Int) (gridAxis true ext xres res k / (ext / 2)) = k := by
  have hr : (res : K) - 1 ≠ 0 := by
    have : (1 : K) < res := by exact_mod_cast hres
    linarith
  simp only [gridAxis, if_true, Vol.linspace, if_neg (by omega : ¬ res = 1), unnorm]
  push_cast
  field_simp
  ring

/-- Without `align_corners` the axis is right if its resolution is that of x ... -/
theorem gridAxis_unaligned (ext : K) (hext : ext ≠ 0) (res k : Nat) (hres : 1 < res) :
    unnorm false (res : Int) (gridAxis false ext res res k / (ext / 2)) = k := by
  have hr : (res : K) - 1 ≠ 0 := by
    have : (1 : K) < res := by exact_mod_cast hres
    linarith
  have hr0 : (res : K) ≠ 0 := by
    have : (0 : K) < res := by exact_mod_cast (by omega : 0 < res)
    exact this.ne'
  simp only [gridAxis, Bool.false_eq_true, if_false, if_pos hres, Vol.linspace, if_neg (by omega : ¬ res = 1), unnorm]
  push_cast
  field_simp
  ring

/-- ... and the first point is off by `(res / xres - 1) / 2` voxels otherwise. -/
theorem gridAxis_other (ext : K) (hext : ext ≠ 0) (xres res : Nat) (hx : 1 < xres) (hres : 1 < res) :
    unnorm false (res : Int) (gridAxis false ext xres res 0 / (ext / 2)) = ((res : K) / xres - 1) / 2 := by
  have hx0 : (xres : K) ≠ 0 := by
    have : (0 : K) < xres := by exact_mod_cast (by omega : 0 < xres)
    exact this.ne'
  simp only [gridAxis, Bool.false_eq_true, if_false, if_pos hx, Vol.linspace, if_neg (by omega : ¬ res = 1), unnorm]
  push_cast
  field_simp
  ring

/-- `get_grid_points` gives the coordinates of voxels in the world exactly if there is no translation: the locator finds voxel `i` displaced by it. -/
theorem gridPoint_translation (ext tr : V3 K) (hext : ext.x ≠ 0) (rx ry rz i j k : Nat) (hrx : 1 < rx) :
    unnorm true (rx : Int) (((gridPoint true ext tr rx ry rz i j k).x - tr.x) / (ext.x / 2)) = i - tr.x * (rx - 1) / ext.x ∧
    (unnorm true (rx : Int) (((gridPoint true ext tr rx ry rz i j k).x - tr.x) / (ext.x / 2)) = i ↔ tr.x = 0) := by
  have hr : (rx : K) - 1 ≠ 0 := by
    have : (1 : K) < rx := by exact_mod_cast hrx
    linarith
  have e : unnorm true (rx : Int) (((gridPoint true ext tr rx ry rz i j k).x - tr.x) / (ext.x / 2)) = i - tr.x * (rx - 1) / ext.x := by
    have h := gridAxis_aligned ext.x hext rx rx i hrx
    simp only [gridPoint, unnorm, if_true] at *
    rw [sub_div]
    push_cast at *
    generalize gridAxis true ext.x rx rx i / (ext.x / 2) = q at *
    rw [← h]
    field_simp
    ring
  refine ⟨e, ?_⟩
  rw [e]
  constructor
  · intro h
    have h2 : tr.x * ((rx : K) - 1) / ext.x = 0 := by linarith
    rw [div_eq_zero_iff, mul_eq_zero] at h2
    tauto
  · intro h
    rw [h]
    simp

/-! ### Examples -/

/-- ... but not in general: five entries 0, 1, 2, 3, 4 cropped to the points between the first and the last two; the first entry stays 0 although it now stands for
the position 1/2. -/
theorem cropSelf_wrong : cropSelf true 5 (-3 / 4 : ℚ) (3 / 4) (fun i => (i : ℚ)) 0 = 0 ∧
    along .bilinear (cut 5 fun i => (i : ℚ)) (unnorm true 5 (newPoint 5 (-3 / 4 : ℚ) (3 / 4) 0)) = 1 / 2 := by
  constructor <;> decide +kernel

/-- Two components, features without basis. -/
example : evalCP ⟨.bilinear, true, .zeros⟩ ⟨2, 2, 2, 2, fun c i => (c : ℚ) + i, fun _ j => (j : ℚ) + 1, fun _ k => (k : ℚ) + 1, none⟩ ⟨0, 0, 1⟩ 0 = 6 := by
  rw [cp_full]
  decide +kernel

example : components (some 24) none true 8 = .ok (8, 8, 8) ∧ components (some 25) none true 8 = .error .value := by decide

example : getResolution [(0, (8 : Nat)), (10, 16), (5, 12)] 7 = some 12 := by decide

example : (List.range 5).map (resize 3 5 fun i => ((i * i : Nat) : ℚ)) = [0, 1 / 2, 1, 5 / 2, 4] := by decide +kernel

/-- Cropping to the middle: voxels 1 to 3 of 5. -/
example : crop true 5 (-1 / 2 : ℚ) (1 / 4) = (1, 3) ∧ crop false 4 (-1 : ℚ) 1 = (3, 1) := by decide +kernel

example : gridPoint true (⟨2, 2, 2⟩ : V3 ℚ) ⟨7, 0, 0⟩ 3 3 3 0 1 2 = ⟨-1, 0, 1⟩ := by decide +kernel

end P3D.VoxelGrid
