/-
`structures/volumes.py` (`Volumes`, `VolumeLocator`) and `VolumeSampler` of `renderer/implicit/renderer.py`.

Simplifications: exact arithmetic in an ordered field; `none` stands for infinite or NaN results. Devices, cloning and the
memory shared between objects are not modelled. A tensor is its shape and a function on indices. The transform of a
volume is kept as a scale and an offset per axis, see `xf_matrix` for the matrices of `Transform3d`.
-/
import Verif.UvSample
import Verif.PointsVolumes
import Verif.Transform3dProps
import Mathlib.Data.List.GetD

set_option linter.unusedSectionVars false

namespace P3D.Vol

open P3D.T3d (Err)
open P3D.Uv (Mode Padding Cfg padCoord unnorm along roundEven)

variable {K : Type} [Field K] [LinearOrder K] [IsStrictOrderedRing K] [FloorRing K]

/-! ## Model -/

/-- (depth, height, width). -/
abbrev Size := Nat × Nat × Nat

/-- A tensor of shape `(C, D, H, W)`. -/
structure Grid (K : Type) where
  C : Nat
  size : Size
  val : Nat → Nat → Nat → Nat → K

/-- A tensor of shape `(N, C, D, H, W)`. -/
structure Tens (K : Type) where
  N : Nat
  C : Nat
  size : Size
  val : Nat → Nat → Nat → Nat → Nat → K

/-- `_TensorBatch`. -/
inductive Batch (K : Type)
  | list (l : List (Grid K))
  | tensor (t : Tens K)

/-- Index in the range of a size. -/
def inside (s : Size) (d h w : Nat) : Prop := d < s.1 ∧ h < s.2.1 ∧ w < s.2.2

instance (s : Size) (d h w : Nat) : Decidable (inside s d h w) := by unfold inside; infer_instance

def maxNat (l : List Nat) : Nat := l.foldr max 0

/-- Largest size of each dimension. -/
def maxSize (l : List Size) : Size :=
  (maxNat (l.map fun s => s.1), maxNat (l.map fun s => s.2.1), maxNat (l.map fun s => s.2.2))

/-- One entry of a padded batch. -/
def padEntry (g : Option (Grid K)) (c d h w : Nat) : K :=
  match g with
  | some g => if c < g.C ∧ inside g.size d h w then g.val c d h w else 0
  | none => 0

/-- `struct_utils.list_to_padded` (structures/utils.py:18-78) for 4-dim tensors. -/
def listToPadded (l : List (Grid K)) : Tens K :=
  ⟨l.length, maxNat (l.map fun g => g.C), maxSize (l.map fun g => g.size), fun n => padEntry l[n]?⟩

/-- `_convert_densities_features_to_tensor`, volumes.py:222-266. An empty list and lists of tensors without channels are
ValueErrors of `max()` in `list_to_padded`. -/
def convert : Batch K → Except Err (Tens K × List Size)
  | .list l =>
    match l with
    | [] => .error .value
    | g :: _ =>
      if g.C = 0 ∨ (∃ x ∈ l, x.C ≠ g.C) then .error .value else .ok (listToPadded l, l.map fun x => x.size)
  | .tensor t => .ok (t, List.replicate t.N t.size)

/-- An argument `voxel_size` or `volume_translation`: a number, a tuple or list, tensors of 0, 1 and 2 dimensions (the
latter with the number of columns). -/
inductive PArg (K : Type)
  | scalar (x : K)
  | seq (l : List K)
  | tens0 (x : K)
  | tens1 (l : List K)
  | tens2 (m : Nat) (rows : List (List K))

def v3 (l : List K) : V3 K := ⟨l.getD 0 0, l.getD 1 0, l.getD 2 0⟩

/-- `_convert_volume_property_to_tensor`, volumes.py:1055-1087. `x.shape[1]` of a 1-dim tensor is an IndexError. -/
def convProp (x : PArg K) (b : Nat) : Except Err (List (V3 K)) :=
  match x with
  | .scalar _ => .error .value
  | .seq l => if l.length ≠ 3 then .error .value else .ok (List.replicate b (v3 l))
  | .tens0 _ => .error .index
  | .tens1 l =>
    if l.length = 1 then .error .index
    else if l.length = 3 then .ok (List.replicate b (v3 l))
    else if l.length = b then .error .index
    else .error .value
  | .tens2 m rows =>
    if (rows.length = 1 ∧ m = 3) ∨ (rows.length = b ∧ m = 3) then
      if rows.length = 1 then .ok (List.replicate b (v3 (rows.getD 0 []))) else .ok (rows.map v3)
    else .error .value

/-- `_handle_voxel_size`, volumes.py:1009-1034. -/
def handleVoxel (x : PArg K) (b : Nat) : Except Err (List (V3 K)) :=
  match x with
  | .scalar c => convProp (.tens2 3 [[c, c, c]]) b
  | .tens0 c => convProp (.tens1 [c, c, c]) b
  | .tens1 [c] => convProp (.tens1 [c, c, c]) b
  | .tens2 1 [[c]] => convProp (.tens1 [c, c, c]) b
  | .tens2 1 rows =>
    if rows.length = b then convProp (.tens2 3 (rows.map fun r => [r.getD 0 0, r.getD 0 0, r.getD 0 0])) b
    else convProp (.tens2 1 rows) b
  | x => convProp x b

/-- A transform `p ↦ p * s + t`. -/
structure Xf (K : Type) where
  s : V3 K
  t : V3 K

def Xf.apply (f : Xf K) (p : V3 K) : V3 K := ⟨p.x * f.s.x + f.t.x, p.y * f.s.y + f.t.y, p.z * f.s.z + f.t.z⟩

/-- The inverse transform; a zero scale gives infinite entries. -/
def Xf.inv (f : Xf K) : Option (Xf K) :=
  if f.s.x = 0 ∨ f.s.y = 0 ∨ f.s.z = 0 then none
  else some ⟨⟨1 / f.s.x, 1 / f.s.y, 1 / f.s.z⟩, ⟨-f.t.x / f.s.x, -f.t.y / f.s.y, -f.t.z / f.s.z⟩⟩

/-- The members of `VolumeLocator`. -/
structure Locator (K : Type) where
  sizes : List Size
  res : Size
  align : Bool
  xf : List (Xf K)

/-- `_voxel_size_translation_to_transform`, volumes.py:766-791, for one volume. -/
def mkXf (size : Size) (vs tr : V3 K) : Xf K :=
  ⟨⟨((size.2.2 : K) - 1) * vs.x * (1 / 2), ((size.2.1 : K) - 1) * vs.y * (1 / 2), ((size.1 : K) - 1) * vs.z * (1 / 2)⟩,
    ⟨-tr.x, -tr.y, -tr.z⟩⟩

/-- `VolumeLocator.__init__`, volumes.py:663-712 with `grid_sizes` a tensor; `torch.max` of an empty batch is an
IndexError. -/
def mkLocator (b : Nat) (sizes : List Size) (vs tr : PArg K) (align : Bool) : Except Err (Locator K) :=
  if b = 0 then .error .index
  else
    (handleVoxel vs b).bind fun v => (convProp tr b).bind fun t =>
      .ok ⟨sizes, maxSize sizes, align, (List.range b).map fun i => mkXf (sizes.getD i (0, 0, 0)) (v.getD i 0) (t.getD i 0)⟩

/-- The members of `Volumes`. -/
structure Volumes (K : Type) where
  dens : Tens K
  feat : Option (Tens K)
  loc : Locator K

/-- `_set_densities_features`, volumes.py:395-418: the tensor to be stored. -/
def checked (L : Locator K) (x : Batch K) : Except Err (Tens K) :=
  (convert x).bind fun r => if r.2 = L.sizes then .ok r.1 else .error .value

/-- `Volumes.__init__`, volumes.py:156-220. -/
def mk (dens : Batch K) (feat : Option (Batch K)) (vs tr : PArg K) (align : Bool) : Except Err (Volumes K) :=
  (convert dens).bind fun r =>
    (mkLocator r.1.N r.2 vs tr align).bind fun L =>
      match feat with
      | none => .ok ⟨r.1, none, L⟩
      | some f => (checked L f).bind fun t => .ok ⟨r.1, some t, L⟩

/-- `x[index]` along the first dimension, for the positions `js`. -/
def Tens.take (t : Tens K) (js : List Nat) : Tens K := ⟨js.length, t.C, t.size, fun n => t.val (js.getD n 0)⟩

/-- `_copy_transform_and_sizes`, volumes.py:980-1007: replaces the sizes and the transform, and nothing else. -/
def copySizes (src dst : Locator K) (js : List Nat) : Locator K :=
  { dst with sizes := js.map fun j => src.sizes.getD j (0, 0, 0), xf := js.map fun j => src.xf.getD j ⟨0, 0⟩ }

/-- `Volumes.__getitem__`, volumes.py:271-305, with the index resolved to a list of (possibly negative) integers. The
constructor is called with the default arguments of `voxel_size`, `volume_translation` and `align_corners`. -/
def getitem (v : Volumes K) (idx : List Int) : Except Err (Volumes K) :=
  (T3d.select (List.range v.dens.N) idx).bind fun js =>
    (mk (.tensor (v.dens.take js)) (v.feat.map fun f => .tensor (f.take js)) (.scalar 1) (.seq [0, 0, 0]) true).bind
      fun new => .ok { new with loc := copySizes v.loc new.loc js }

/-- One entry of `struct_utils.padded_to_list` (structures/utils.py:81-117) with sizes for all dimensions. -/
def cut (t : Tens K) (n : Nat) (s : Size) : Grid K :=
  ⟨t.C, (min s.1 t.size.1, min s.2.1 t.size.2.1, min s.2.2 t.size.2.2), t.val n⟩

/-- `_features_densities_list`, volumes.py:351-366. -/
def toList (L : Locator K) (t : Tens K) : Except Err (List (Grid K)) :=
  if t.N ≠ L.sizes.length then .error .value
  else .ok ((List.range t.N).map fun n => cut t n (L.sizes.getD n (0, 0, 0)))

/-- `update_padded`, volumes.py:368-393. -/
def updatePadded (v : Volumes K) (dens : Batch K) (feat : Option (Batch K)) : Except Err (Volumes K) :=
  (checked v.loc dens).bind fun d =>
    match feat with
    | none => .ok ⟨d, none, v.loc⟩
    | some f => (checked v.loc f).bind fun t => .ok ⟨d, some t, v.loc⟩

/-! ### Coordinates -/

/-- `torch.linspace(lo, hi, r)[k]`. -/
def linspace (lo hi : K) (r k : Nat) : K := if r = 1 then lo else lo + k * ((hi - lo) / ((r : K) - 1))

/-- `corner_coord_adjustment`, volumes.py:832-833. -/
def cornerAdj (align : Bool) (r : Nat) : K := if align then 0 else 1 / r

/-- One entry of `vol_axes`, volumes.py:835-844. -/
def axis (align : Bool) (r k : Nat) : K := linspace (-1 + cornerAdj align r) (1 - cornerAdj align r) r k

/-- One entry of `grid_sizes_relative`, volumes.py:853-857. -/
def rel (R s : Nat) : Option K := if s = 1 then none else some (((R : K) - 1) / ((s : K) - 1))

/-- `(grid_sizes_relative != 1.0).any()`, volumes.py:859. -/
def adjusted (L : Locator K) : Bool :=
  L.sizes.any fun s => decide (rel (K := K) L.res.1 s.1 ≠ some 1) || decide (rel (K := K) L.res.2.1 s.2.1 ≠ some 1) ||
    decide (rel (K := K) L.res.2.2 s.2.2 ≠ some 1)

/-- One local coordinate, volumes.py:859-866. -/
def axisLocal (adj align : Bool) (R s k : Nat) : Option K :=
  if adj then (rel R s).map fun r => axis align R k * r + (r - 1) else some (axis align R k)

/-- `_calculate_coordinate_grid(world_coordinates=False)`, volumes.py:818-873, at one voxel. -/
def coordLocal (L : Locator K) (n d h w : Nat) : Option (V3 K) :=
  let s := L.sizes.getD n (0, 0, 0)
  (axisLocal (adjusted L) L.align L.res.2.2 s.2.2 w).bind fun x =>
    (axisLocal (adjusted L) L.align L.res.2.1 s.2.1 h).bind fun y =>
      (axisLocal (adjusted L) L.align L.res.1 s.1 d).bind fun z => some ⟨x, y, z⟩

/-- `local_to_world_coords`, volumes.py:926-947, for one point of volume `n`. -/
def toWorld (L : Locator K) (n : Nat) (p : V3 K) : V3 K := (L.xf.getD n ⟨0, 0⟩).apply p

/-- `world_to_local_coords`, volumes.py:903-924. -/
def toLocal (L : Locator K) (n : Nat) (p : V3 K) : Option (V3 K) := (L.xf.getD n ⟨0, 0⟩).inv.map fun f => f.apply p

/-- `_calculate_coordinate_grid(world_coordinates=True)`. -/
def coordWorld (L : Locator K) (n d h w : Nat) : Option (V3 K) := (coordLocal L n d h w).map (toWorld L n)

/-! ### Sampling -/

/-- A voxel, zero outside of the tensor. -/
def voxel (t : Tens K) (n c : Nat) (k j i : Int) : K :=
  if 0 ≤ k ∧ k < t.size.1 ∧ 0 ≤ j ∧ j < t.size.2.1 ∧ 0 ≤ i ∧ i < t.size.2.2 then t.val n c k.toNat j.toNat i.toNat else 0

/-- The eight neighbours of `F.grid_sample` in three dimensions. -/
def trilinear (t : Tens K) (n c : Nat) (z y x : K) : K :=
  let wx := x - ⌊x⌋
  let wy := y - ⌊y⌋
  let wz := z - ⌊z⌋
  voxel t n c ⌊z⌋ ⌊y⌋ ⌊x⌋ * ((1 - wx) * (1 - wy) * (1 - wz)) + voxel t n c ⌊z⌋ ⌊y⌋ (⌊x⌋ + 1) * (wx * (1 - wy) * (1 - wz))
    + voxel t n c ⌊z⌋ (⌊y⌋ + 1) ⌊x⌋ * ((1 - wx) * wy * (1 - wz)) + voxel t n c ⌊z⌋ (⌊y⌋ + 1) (⌊x⌋ + 1) * (wx * wy * (1 - wz))
    + voxel t n c (⌊z⌋ + 1) ⌊y⌋ ⌊x⌋ * ((1 - wx) * (1 - wy) * wz) + voxel t n c (⌊z⌋ + 1) ⌊y⌋ (⌊x⌋ + 1) * (wx * (1 - wy) * wz)
    + voxel t n c (⌊z⌋ + 1) (⌊y⌋ + 1) ⌊x⌋ * ((1 - wx) * wy * wz) + voxel t n c (⌊z⌋ + 1) (⌊y⌋ + 1) (⌊x⌋ + 1) * (wx * wy * wz)

/-- `F.grid_sample` of a 5-dim tensor at one point. -/
def gridSample (c : Cfg) (t : Tens K) (n ch : Nat) (p : V3 K) : K :=
  let x := padCoord c.align c.pad t.size.2.2 (unnorm c.align t.size.2.2 p.x)
  let y := padCoord c.align c.pad t.size.2.1 (unnorm c.align t.size.2.1 p.y)
  let z := padCoord c.align c.pad t.size.1 (unnorm c.align t.size.1 p.z)
  match c.mode with
  | .bilinear => trilinear t n ch z y x
  | .nearest => voxel t n ch (roundEven z) (roundEven y) (roundEven x)

/-- The sampled point in local coordinates, renderer.py:349-367: the origin is transformed, the direction is multiplied by
the linear part of the transform, `ray_bundle_variables_to_ray_points` adds them. -/
def rayLocal (L : Locator K) (n : Nat) (o d : V3 K) (len : K) : Option (V3 K) :=
  (L.xf.getD n ⟨0, 0⟩).inv.map fun f =>
    let o' := f.apply o
    ⟨o'.x + len * (d.x * f.s.x), o'.y + len * (d.y * f.s.y), o'.z + len * (d.z * f.s.z)⟩

/-- `VolumeSampler.forward`, renderer.py:305-415: channel `ch` of the densities (`feat = false`) or features at length
`len` of a ray of batch element `n`. -/
def sampler (v : Volumes K) (mode : Mode) (pad : Padding) (t : Tens K) (n ch : Nat) (o d : V3 K) (len : K) : Option K :=
  (rayLocal v.loc n o d len).map fun p => gridSample ⟨mode, v.loc.align, pad⟩ t n ch p

/-! ## Specification -/

/-- The volumes are not padded: all have the size of the tensor. -/
def Homog (v : Volumes K) : Prop := v.loc.sizes = List.replicate v.dens.N v.dens.size

/-- What every constructed object satisfies. -/
structure WF (v : Volumes K) : Prop where
  pos : 0 < v.dens.N
  len : v.loc.sizes.length = v.dens.N
  xlen : v.loc.xf.length = v.dens.N
  fit : ∀ s ∈ v.loc.sizes, s.1 ≤ v.dens.size.1 ∧ s.2.1 ≤ v.dens.size.2.1 ∧ s.2.2 ≤ v.dens.size.2.2
  res : v.loc.res = v.dens.size
  feat : ∀ f ∈ v.feat, f.N = v.dens.N ∧ f.size = v.dens.size

/-- Centre of voxel `k` along an axis with `S` voxels of size `vs`, volume centred at `-tr`. -/
def centre (S : Nat) (vs tr : K) (k : Nat) : K := ((k : K) - ((S : K) - 1) / 2) * vs - tr

/-- Equality of grids: shapes and entries. -/
def Same (a b : Grid K) : Prop :=
  a.C = b.C ∧ a.size = b.size ∧ ∀ c d h w, c < a.C → inside a.size d h w → a.val c d h w = b.val c d h w

/-! ## Construction -/

theorem maxNat_replicate {n : Nat} (h : 0 < n) (a : Nat) : maxNat (List.replicate n a) = a := by
  obtain ⟨m, rfl⟩ : ∃ m, n = m + 1 := ⟨n - 1, by omega⟩
  clear h
  unfold maxNat
  induction m with
  | zero => simp
  | succ m ih =>
    rw [List.replicate_succ, List.foldr_cons, ih]
    exact max_self a

theorem maxSize_replicate {n : Nat} (h : 0 < n) (s : Size) : maxSize (List.replicate n s) = s := by
  unfold maxSize
  simp only [List.map_replicate, maxNat_replicate h]

theorem le_maxNat {l : List Nat} {a : Nat} (h : a ∈ l) : a ≤ maxNat l := by
  induction l with
  | nil => simp at h
  | cons b l ih =>
    unfold maxNat at ih ⊢
    rw [List.foldr_cons]
    rcases List.mem_cons.mp h with rfl | h
    · exact le_max_left _ _
    · exact le_trans (ih h) (le_max_right _ _)

theorem maxNat_le {l : List Nat} {a : Nat} (h : ∀ b ∈ l, b ≤ a) : maxNat l ≤ a := by
  induction l with
  | nil => exact Nat.zero_le _
  | cons b l ih =>
    unfold maxNat at ih ⊢
    rw [List.foldr_cons]
    exact max_le (h b List.mem_cons_self) (ih fun c hc => h c (List.mem_cons_of_mem _ hc))

theorem le_maxSize {l : List Size} {s : Size} (h : s ∈ l) :
    s.1 ≤ (maxSize l).1 ∧ s.2.1 ≤ (maxSize l).2.1 ∧ s.2.2 ≤ (maxSize l).2.2 :=
  ⟨le_maxNat (List.mem_map.mpr ⟨s, h, rfl⟩), le_maxNat (List.mem_map.mpr ⟨s, h, rfl⟩), le_maxNat (List.mem_map.mpr ⟨s, h, rfl⟩)⟩

/-- The shape facts of a converted batch. -/
theorem convert_spec {x : Batch K} {t : Tens K} {sizes : List Size} (h : convert x = .ok (t, sizes)) :
    sizes.length = t.N ∧ (0 < t.N → maxSize sizes = t.size) := by
  cases x with
  | list l =>
    cases l with
    | nil => simp [convert] at h
    | cons g l =>
      simp only [convert] at h
      split at h
      · simp at h
      · simp only [Except.ok.injEq, Prod.mk.injEq] at h
        obtain ⟨rfl, rfl⟩ := h
        exact ⟨by simp [listToPadded], fun _ => rfl⟩
  | tensor u =>
    simp only [convert, Except.ok.injEq, Prod.mk.injEq] at h
    obtain ⟨rfl, rfl⟩ := h
    exact ⟨List.length_replicate, fun h => maxSize_replicate h _⟩

theorem checked_spec {L : Locator K} {x : Batch K} {t : Tens K} (h : checked L x = .ok t) :
    convert x = .ok (t, L.sizes) := by
  unfold checked at h
  cases hc : convert x with
  | error e => simp [hc, Except.bind] at h
  | ok r =>
    simp only [hc, Except.bind] at h
    split at h
    next e =>
      simp only [Except.ok.injEq] at h
      rw [← h, ← e]
    next => simp at h

theorem bind_ok {α β : Type} {x : Except Err α} {f : α → Except Err β} {b : β} (h : x.bind f = .ok b) :
    ∃ a, x = .ok a ∧ f a = .ok b := by
  cases x with
  | error e => simp [Except.bind] at h
  | ok a => exact ⟨a, rfl, h⟩

theorem mkLocator_spec {b : Nat} {sizes : List Size} {vs tr : PArg K} {al : Bool} {L : Locator K}
    (h : mkLocator b sizes vs tr al = .ok L) :
    0 < b ∧ L.sizes = sizes ∧ L.res = maxSize sizes ∧ L.align = al ∧ L.xf.length = b ∧ ∃ v t, handleVoxel vs b = .ok v ∧
      convProp tr b = .ok t ∧
      ∀ i < b, L.xf.getD i ⟨0, 0⟩ = mkXf (sizes.getD i (0, 0, 0)) (v.getD i 0) (t.getD i 0) := by
  unfold mkLocator at h
  split at h
  · simp at h
  · next hb =>
    obtain ⟨v, hv, h⟩ := bind_ok h
    obtain ⟨t, ht, h⟩ := bind_ok h
    simp only [Except.ok.injEq] at h
    subst h
    refine ⟨Nat.pos_of_ne_zero hb, rfl, rfl, rfl, by simp, v, t, hv, ht, fun i hi => ?_⟩
    rw [List.getD_eq_getElem _ _ (by simpa using hi)]
    simp

/-- **C62a.** Every object made by the constructor is consistent. -/
theorem mk_wf {dens : Batch K} {feat : Option (Batch K)} {vs tr : PArg K} {al : Bool} {v : Volumes K}
    (h : mk dens feat vs tr al = .ok v) : WF v ∧ v.loc.align = al := by
  unfold mk at h
  obtain ⟨⟨t, sizes⟩, hr, h⟩ := bind_ok h
  obtain ⟨L, hL, h⟩ := bind_ok h
  obtain ⟨hb, hs, hres, hal, hx, -⟩ := mkLocator_spec hL
  obtain ⟨c1, c2⟩ := convert_spec hr
  have c2 := c2 hb
  simp only at hb hs hres hx hL h
  have fit : ∀ s ∈ L.sizes, s.1 ≤ t.size.1 ∧ s.2.1 ≤ t.size.2.1 ∧ s.2.2 ≤ t.size.2.2 := by
    intro s hm
    rw [← c2, ← hs]
    exact le_maxSize hm
  cases feat with
  | none =>
    simp only [Except.ok.injEq] at h
    subst h
    exact ⟨⟨hb, by rw [hs, c1], hx, fit, by rw [hres, c2], by simp⟩, hal⟩
  | some f =>
    obtain ⟨u, hu, h⟩ := bind_ok h
    simp only [Except.ok.injEq] at h
    subst h
    have e := convert_spec (checked_spec hu)
    refine ⟨⟨hb, by rw [hs, c1], hx, fit, by rw [hres, c2], ?_⟩, hal⟩
    intro f' hf
    simp only [Option.mem_def, Option.some.injEq] at hf
    subst hf
    have n1 : u.N = t.N := by rw [← e.1, hs, c1]
    exact ⟨n1, by rw [← e.2 (by omega), hs, c2]⟩

theorem same_padded {l : List (Grid K)} (hC : ∀ x ∈ l, ∀ y ∈ l, x.C = y.C) {i : Nat} (hi : i < l.length) :
    Same (cut (listToPadded l) i l[i].size) l[i] := by
  have hm : l[i] ∈ l := List.getElem_mem hi
  have hc : maxNat (l.map fun g => g.C) = l[i].C := by
    apply le_antisymm
    · apply maxNat_le
      intro b hb
      obtain ⟨g, hg, rfl⟩ := List.mem_map.mp hb
      exact le_of_eq (hC g hg _ hm)
    · exact le_maxNat (List.mem_map.mpr ⟨_, hm, rfl⟩)
  obtain ⟨s1, s2, s3⟩ := le_maxSize (List.mem_map.mpr ⟨l[i], hm, rfl⟩ : l[i].size ∈ l.map fun g => g.size)
  have hsz : (cut (listToPadded l) i l[i].size).size = l[i].size := by
    simp only [cut, listToPadded]
    rw [min_eq_left s1, min_eq_left s2, min_eq_left s3]
  refine ⟨hc, hsz, fun c d h w h1 h2 => ?_⟩
  rw [hsz] at h2
  have h1' : c < l[i].C := by rw [← hc]; exact h1
  simp only [cut, listToPadded, List.getElem?_eq_getElem hi, padEntry]
  rw [if_pos ⟨h1', h2⟩]

theorem convert_list {l : List (Grid K)} {t : Tens K} {sizes : List Size} (h : convert (.list l) = .ok (t, sizes)) :
    t = listToPadded l ∧ sizes = (l.map fun x => x.size) ∧ ∀ x ∈ l, ∀ y ∈ l, x.C = y.C := by
  cases l with
  | nil => simp [convert] at h
  | cons g l =>
    simp only [convert] at h
    split at h
    · simp at h
    · next hn =>
      push Not at hn
      simp only [Except.ok.injEq, Prod.mk.injEq] at h
      exact ⟨h.1.symm, h.2.symm, fun x hx y hy => (hn.2 x hx).trans (hn.2 y hy).symm⟩

theorem toList_of_list {l : List (Grid K)} {t : Tens K} {L : Locator K} (h : convert (.list l) = .ok (t, L.sizes)) :
    ∃ gs, toList L t = .ok gs ∧ List.Forall₂ Same gs l := by
  obtain ⟨rfl, hs, hC⟩ := convert_list h
  refine ⟨_, by unfold toList; rw [if_neg (by simp [hs, listToPadded])], ?_⟩
  rw [List.forall₂_iff_get]
  refine ⟨by simp [listToPadded], fun i h1 h2 => ?_⟩
  simp only [List.get_eq_getElem, List.getElem_map, List.getElem_range]
  rw [hs, List.getD_eq_getElem _ _ (by simpa using h2), List.getElem_map]
  exact same_padded hC h2

/-- **C62b.** Round trip: lists of grids of any sizes come back unchanged from `densities_list` and `features_list`. -/
theorem list_roundtrip {l : List (Grid K)} {f : Option (Batch K)} {vs tr : PArg K} {al : Bool} {v : Volumes K}
    (h : mk (.list l) f vs tr al = .ok v) :
    (∃ gs, toList v.loc v.dens = .ok gs ∧ List.Forall₂ Same gs l) ∧
    ∀ lf, f = some (.list lf) → ∃ t, v.feat = some t ∧ ∃ gs, toList v.loc t = .ok gs ∧ List.Forall₂ Same gs lf := by
  unfold mk at h
  obtain ⟨⟨t, sizes⟩, hr, h⟩ := bind_ok h
  obtain ⟨L, hL, h⟩ := bind_ok h
  obtain ⟨-, hs, -⟩ := mkLocator_spec hL
  simp only at hs
  rw [← hs] at hr
  cases f with
  | none =>
    simp only [Except.ok.injEq] at h
    subst h
    exact ⟨toList_of_list hr, by simp⟩
  | some f =>
    obtain ⟨u, hu, h⟩ := bind_ok h
    simp only [Except.ok.injEq] at h
    subst h
    refine ⟨toList_of_list hr, fun lf e => ⟨u, rfl, ?_⟩⟩
    simp only [Option.some.injEq] at e
    subst e
    exact toList_of_list (checked_spec hu)

/-! ## Indexing -/

theorem mapM_getElem {α β : Type} {f : α → Except Err β} : ∀ {l : List α} {r : List β}, l.mapM f = .ok r →
    r.length = l.length ∧ ∀ b ∈ r, ∃ a ∈ l, f a = .ok b := by
  intro l
  induction l with
  | nil =>
    intro r h
    simp only [List.mapM_nil] at h
    cases h
    simp
  | cons a l ih =>
    intro r h
    rw [List.mapM_cons] at h
    obtain ⟨b, hb, h⟩ := bind_ok h
    obtain ⟨r', hr, h⟩ := bind_ok h
    cases h
    obtain ⟨i1, i2⟩ := ih hr
    refine ⟨by simp [i1], fun c hc => ?_⟩
    rcases List.mem_cons.mp hc with rfl | hc
    · exact ⟨a, List.mem_cons_self, hb⟩
    · obtain ⟨x, hx, e⟩ := i2 c hc
      exact ⟨x, List.mem_cons_of_mem _ hx, e⟩

theorem select_lt {N : Nat} {idx : List Int} {js : List Nat} (h : T3d.select (List.range N) idx = .ok js) :
    js.length = idx.length ∧ ∀ j ∈ js, j < N := by
  obtain ⟨h1, h2⟩ := mapM_getElem h
  refine ⟨h1, fun j hj => ?_⟩
  obtain ⟨i, -, e⟩ := h2 j hj
  unfold T3d.selectOne at e
  split at e
  · simp at e
  · split at e
    · next x hx =>
      simp only [Except.ok.injEq] at e
      subst e
      exact List.mem_range.mp (List.mem_of_getElem? hx)
    · simp at e

/-- **C62c.** Indexing: the result holds the selected entries, sizes and transforms; the tensors keep their padded size; the
flag `align_corners` is `True` whatever it was. -/
theorem getitem_spec {v : Volumes K} (h : WF v) {idx : List Int} {js : List Nat}
    (hs : T3d.select (List.range v.dens.N) idx = .ok js) (hne : idx ≠ []) :
    ∃ u, getitem v idx = .ok u ∧ WF u ∧ u.dens = v.dens.take js ∧ u.feat = v.feat.map (fun f => f.take js) ∧
      u.loc.sizes = (js.map fun j => v.loc.sizes.getD j (0, 0, 0)) ∧ u.loc.xf = (js.map fun j => v.loc.xf.getD j ⟨0, 0⟩) ∧
      u.loc.res = v.loc.res ∧ u.loc.align = true := by
  obtain ⟨hl, hlt⟩ := select_lt hs
  have hpos : 0 < js.length := by
    rw [hl]
    exact List.length_pos_iff.mpr hne
  have hL : ∃ L : Locator K, mkLocator js.length (List.replicate js.length v.dens.size) (.scalar 1) (.seq [0, 0, 0]) true
      = .ok L ∧ L.sizes = List.replicate js.length v.dens.size ∧ L.res = v.dens.size ∧ L.align = true := by
    unfold mkLocator
    rw [if_neg (by omega)]
    exact ⟨_, rfl, rfl, maxSize_replicate hpos _, rfl⟩
  obtain ⟨L, hL, l1, l2, l3⟩ := hL
  have hmk : mk (.tensor (v.dens.take js)) (v.feat.map fun f => .tensor (f.take js)) (.scalar 1) (.seq [0, 0, 0]) true
      = .ok ⟨v.dens.take js, v.feat.map (fun f => f.take js), L⟩ := by
    unfold mk
    simp only [convert, Except.bind]
    have : (v.dens.take js).N = js.length := rfl
    have e2 : (v.dens.take js).size = v.dens.size := rfl
    rw [this, e2, hL]
    cases hf : v.feat with
    | none => rfl
    | some f =>
      have e3 : f.size = v.dens.size := (h.feat f hf).2
      have hc : checked L (.tensor (f.take js)) = .ok (f.take js) := by
        unfold checked
        simp only [convert, Except.bind]
        have : (f.take js).N = js.length := rfl
        have e4 : (f.take js).size = v.dens.size := e3
        rw [this, e4, l1, if_pos rfl]
      simp only [Option.map_some, hc]
  refine ⟨⟨v.dens.take js, v.feat.map (fun f => f.take js), copySizes v.loc L js⟩,
    by unfold getitem; rw [hs]; simp only [Except.bind, hmk], ?_, rfl, rfl, rfl, rfl, by rw [h.res]; exact l2, l3⟩
  have fit : ∀ j ∈ js, v.loc.sizes.getD j (0, 0, 0) ∈ v.loc.sizes := by
    intro j hj
    rw [List.getD_eq_getElem _ _ (by rw [h.len]; exact hlt j hj)]
    exact List.getElem_mem _
  refine ⟨hpos, by simp [copySizes, Tens.take], by simp [copySizes, Tens.take], ?_, l2, ?_⟩
  · intro s hm
    simp only [copySizes] at hm
    obtain ⟨j, hj, rfl⟩ := List.mem_map.mp hm
    exact h.fit _ (fit j hj)
  · intro f hf
    cases hv : v.feat with
    | none => simp [hv] at hf
    | some f' =>
      simp only [hv, Option.map_some, Option.mem_def, Option.some.injEq] at hf
      subst hf
      exact ⟨rfl, (h.feat f' hv).2⟩

/-- `densities_list` and `features_list` of the result are those of the selected volumes. -/
theorem getitem_toList {v u : Volumes K} (h : WF v) {idx : List Int} {js : List Nat}
    (hs : T3d.select (List.range v.dens.N) idx = .ok js) (hne : idx ≠ []) (hu : getitem v idx = .ok u) {t : Tens K}
    (ht : t.N = v.dens.N) :
    ∃ gs gs', toList v.loc t = .ok gs ∧ toList u.loc (t.take js) = .ok gs' ∧ gs.length = v.dens.N ∧ gs'.length = js.length ∧
      ∀ i (hi : i < js.length), gs'[i]? = gs[js[i]]? := by
  obtain ⟨u', hu', hw, -, -, hsz, -⟩ := getitem_spec h hs hne
  rw [hu] at hu'
  cases hu'
  refine ⟨_, _, by unfold toList; rw [if_neg (by rw [ht, h.len]; simp)], by unfold toList; rw [if_neg (by simp [hsz, Tens.take])],
    by simp [ht], by simp [Tens.take], fun i hi => ?_⟩
  have hj : js[i] < t.N := by rw [ht]; exact (select_lt hs).2 _ (List.getElem_mem hi)
  have hi' : i < (t.take js).N := hi
  simp only [List.getElem?_map, List.getElem?_range hi', List.getElem?_range hj, Option.map_some, Option.some.injEq]
  unfold cut
  simp only [Tens.take, hsz]
  have e1 : (js.map fun j => v.loc.sizes.getD j (0, 0, 0)).getD i (0, 0, 0) = v.loc.sizes.getD js[i] (0, 0, 0) := by
    simp [List.getD_eq_getElem?_getD, hi]
    rfl
  have e2 : js.getD i 0 = js[i] := List.getD_eq_getElem _ _ hi
  rw [e1, e2]
  rfl

/-! ## `update_padded` -/

/-- **C62d.** `update_padded` with tensors of the padded shape succeeds exactly if every volume of the batch has the full padded
size: batches with padding raise a ValueError. On success only the two tensors change. -/
theorem updatePadded_iff (v : Volumes K) (t : Tens K) (hN : t.N = v.dens.N) (hS : t.size = v.dens.size) :
    (Homog v → updatePadded v (.tensor t) none = .ok ⟨t, none, v.loc⟩) ∧
    (¬ Homog v → ∀ f, updatePadded v (.tensor t) f = .error .value) := by
  constructor
  · intro h
    unfold updatePadded checked
    simp only [convert, Except.bind]
    rw [hN, hS, if_pos h.symm]
  · intro h f
    unfold updatePadded checked
    simp only [convert, Except.bind]
    rw [hN, hS, if_neg (fun e => h e.symm)]

/-- With features of the same shape. -/
theorem updatePadded_feat {v : Volumes K} (h : Homog v) {t f : Tens K} (hN : t.N = v.dens.N) (hS : t.size = v.dens.size)
    (fN : f.N = v.dens.N) (fS : f.size = v.dens.size) :
    updatePadded v (.tensor t) (some (.tensor f)) = .ok ⟨t, some f, v.loc⟩ := by
  unfold updatePadded checked
  simp only [convert, Except.bind]
  rw [hN, hS, if_pos h.symm, fN, fS]
  simp only [h.symm, if_true]

/-! ## Coordinates -/

theorem axis_true (r : Nat) (hr : r ≠ 1) (k : Nat) : axis (K := K) true r k = -1 + 2 * k / ((r : K) - 1) := by
  have : (r : K) - 1 ≠ 0 := by
    intro h
    exact hr (by exact_mod_cast sub_eq_zero.mp h)
  unfold axis linspace cornerAdj
  simp only [if_true, if_neg hr]
  field_simp
  ring

theorem axis_false (r : Nat) (hr : 1 ≤ r) (k : Nat) (hk : k < r) : axis (K := K) false r k = -1 + (2 * k + 1) / (r : K) := by
  have h0 : (r : K) ≠ 0 := by
    intro h
    have : r = 0 := by exact_mod_cast h
    omega
  unfold axis linspace cornerAdj
  simp only [Bool.false_eq_true, if_false]
  by_cases h1 : r = 1
  · have : k = 0 := by omega
    subst h1 this
    simp
  · have : (r : K) - 1 ≠ 0 := by
      intro h
      exact h1 (by exact_mod_cast sub_eq_zero.mp h)
    rw [if_neg h1]
    field_simp
    ring

/-- One axis with `align_corners`: whether or not the grid is adjusted. -/
theorem axisLocal_true {adj : Bool} {R s : Nat} (hs : s ≠ 1) (hR : R ≠ 1) (hadj : adj = false → R = s) (k : Nat) :
    axisLocal (K := K) adj true R s k = some (-1 + 2 * k / ((s : K) - 1)) := by
  have h1 : (s : K) - 1 ≠ 0 := by
    intro h
    exact hs (by exact_mod_cast sub_eq_zero.mp h)
  have h2 : (R : K) - 1 ≠ 0 := by
    intro h
    exact hR (by exact_mod_cast sub_eq_zero.mp h)
  unfold axisLocal
  cases adj with
  | false =>
    rw [hadj rfl] at hR ⊢
    simp only [Bool.false_eq_true, if_false, axis_true s hs]
  | true =>
    simp only [if_true, rel, if_neg hs, Option.map_some, axis_true R hR, Option.some.injEq]
    field_simp
    ring

theorem rel_one {R s : Nat} (h : rel (K := K) R s = some 1) : R = s := by
  unfold rel at h
  split at h
  · simp at h
  · next hs =>
    simp only [Option.some.injEq] at h
    have h1 : (s : K) - 1 ≠ 0 := by
      intro h
      exact hs (by exact_mod_cast sub_eq_zero.mp h)
    rw [div_eq_one_iff_eq h1] at h
    have : (R : K) = s := by linarith
    exact_mod_cast this

theorem adjusted_false {L : Locator K} (h : adjusted L = false) {s : Size} (hs : s ∈ L.sizes) : L.res = s := by
  unfold adjusted at h
  rw [List.any_eq_false] at h
  have := h s hs
  simp only [Bool.or_eq_true, decide_eq_true_eq, not_or, not_not] at this
  obtain ⟨⟨a, b⟩, c⟩ := this
  exact Prod.ext (rel_one a) (Prod.ext (rel_one b) (rel_one c))

/-- No dimension has exactly one voxel. -/
def NoUnit (s : Size) : Prop := s.1 ≠ 1 ∧ s.2.1 ≠ 1 ∧ s.2.2 ≠ 1

/-- **C62e.** Local coordinates with `align_corners`, for batches of volumes of any sizes: voxel `k` of `S` is at
`-1 + 2 k / (S - 1)`, with the size of its own volume. -/
theorem coordLocal_true {L : Locator K} (hal : L.align = true) {n : Nat} (hn : n < L.sizes.length)
    (hs : NoUnit L.sizes[n]) (hR : NoUnit L.res) (d h w : Nat) :
    coordLocal L n d h w = some ⟨-1 + 2 * w / ((L.sizes[n].2.2 : K) - 1), -1 + 2 * h / ((L.sizes[n].2.1 : K) - 1),
      -1 + 2 * d / ((L.sizes[n].1 : K) - 1)⟩ := by
  have ha : adjusted L = false → L.res = L.sizes[n] := fun e => adjusted_false e (List.getElem_mem hn)
  unfold coordLocal
  simp only [List.getD_eq_getElem _ _ hn, hal]
  rw [axisLocal_true hs.2.2 hR.2.2 (fun e => by rw [ha e]), axisLocal_true hs.2.1 hR.2.1 (fun e => by rw [ha e]),
    axisLocal_true hs.1 hR.1 (fun e => by rw [ha e])]
  rfl

theorem adjusted_homog {L : Locator K} (h : ∀ s ∈ L.sizes, s = L.res) (hu : NoUnit L.res) : adjusted L = false := by
  unfold adjusted
  rw [List.any_eq_false]
  intro s hs
  rw [h s hs]
  have : ∀ r : Nat, r ≠ 1 → rel (K := K) r r = some 1 := by
    intro r hr
    unfold rel
    rw [if_neg hr, div_self]
    intro h
    exact hr (by exact_mod_cast sub_eq_zero.mp h)
  simp [this _ hu.1, this _ hu.2.1, this _ hu.2.2]

/-- **C62f.** Without `align_corners`, volumes of one size: voxel `k` of `S` is at `-1 + (2 k + 1) / S`. -/
theorem coordLocal_false {L : Locator K} (hal : L.align = false) (hh : ∀ s ∈ L.sizes, s = L.res) (hu : NoUnit L.res)
    (n : Nat) {d h w : Nat} (hi : inside L.res d h w) :
    coordLocal L n d h w = some ⟨-1 + (2 * w + 1) / (L.res.2.2 : K), -1 + (2 * h + 1) / (L.res.2.1 : K),
      -1 + (2 * d + 1) / (L.res.1 : K)⟩ := by
  obtain ⟨i1, i2, i3⟩ := hi
  unfold coordLocal axisLocal
  simp only [adjusted_homog hh hu, Bool.false_eq_true, if_false, hal, Option.bind]
  rw [axis_false _ (by omega) _ i1, axis_false _ (by omega) _ i2, axis_false _ (by omega) _ i3]

/-- **C62g.** A volume with a dimension of one voxel has no finite coordinates: the grid is rescaled by a division by zero. -/
theorem coordLocal_unit {L : Locator K} {n : Nat} (hn : n < L.sizes.length)
    (hs : ¬ NoUnit L.sizes[n]) (d h w : Nat) : coordLocal L n d h w = none := by
  have hadj : adjusted L = true := by
    unfold adjusted
    rw [List.any_eq_true]
    refine ⟨_, List.getElem_mem hn, ?_⟩
    unfold NoUnit at hs
    simp only [Bool.or_eq_true, decide_eq_true_eq]
    by_contra hc
    push Not at hc
    apply hs
    unfold rel at hc
    refine ⟨?_, ?_, ?_⟩ <;> intro e <;> simp [e] at hc
  have key : ∀ R s k, s = 1 → axisLocal (K := K) true L.align R s k = none := by
    intro R s k e
    simp [axisLocal, rel, e]
  unfold coordLocal
  simp only [List.getD_eq_getElem _ _ hn, hadj]
  by_cases e3 : L.sizes[n].2.2 = 1
  · rw [key _ _ _ e3]; rfl
  by_cases e2 : L.sizes[n].2.1 = 1
  · rw [key _ _ _ e2]
    cases axisLocal (K := K) true L.align L.res.2.2 L.sizes[n].2.2 w <;> rfl
  by_cases e1 : L.sizes[n].1 = 1
  · rw [key _ _ _ e1]
    cases axisLocal (K := K) true L.align L.res.2.2 L.sizes[n].2.2 w
    · rfl
    · cases axisLocal (K := K) true L.align L.res.2.1 L.sizes[n].2.1 h <;> rfl
  · exact absurd ⟨e1, e2, e3⟩ hs

/-! ## World coordinates -/

/-- The transform of a volume agrees with the matrices of `Scale(s).translate(t)` and their inverse. -/
theorem xf_matrix (f : Xf K) (p : V3 K) :
    T3d.transformPoint none p (T3d.scaleMat f.s * T3d.translateMat f.t) = f.apply p ∧
    ∀ g, f.inv = some g → T3d.transformPoint none p (T3d.scaleMat f.s * T3d.translateMat f.t)⁻¹ = g.apply p := by
  have key : ∀ s t : V3 K, T3d.scaleMat s * T3d.translateMat t = M4.affine ⟨s.x, 0, 0, 0, s.y, 0, 0, 0, s.z⟩ t := by
    intro s t
    unfold T3d.scaleMat T3d.translateMat
    rw [T3d.affine_mul, M3.mul_one', M3.vecMul_one, zero_add]
  refine ⟨?_, fun g hg => ?_⟩
  · rw [key, T3d.transformPoint_affine]
    ext <;> simp [Xf.apply, M3.vecMul]
  · unfold Xf.inv at hg
    split at hg
    · simp at hg
    · next hz =>
      push Not at hz
      obtain ⟨h1, h2, h3⟩ := hz
      simp only [Option.some.injEq] at hg
      have hinv : (M4.affine ⟨f.s.x, 0, 0, 0, f.s.y, 0, 0, 0, f.s.z⟩ f.t)⁻¹
          = M4.affine ⟨g.s.x, 0, 0, 0, g.s.y, 0, 0, 0, g.s.z⟩ g.t := by
        apply T3d.inv_eq
        rw [T3d.affine_mul, ← T3d.affine_one]
        subst hg
        congr 1
        · simp only [M3.mul_def, M3.one_def, M3.mk.injEq]
          refine ⟨?_, ?_, ?_, ?_, ?_, ?_, ?_, ?_, ?_⟩ <;> field_simp <;> ring
        · ext <;> simp only [M3.vecMul, V3.add_x, V3.add_y, V3.add_z, V3.zero_x, V3.zero_y, V3.zero_z] <;> field_simp <;> ring
      rw [key, hinv, T3d.transformPoint_affine]
      ext <;> simp [Xf.apply, M3.vecMul]

/-- **C62h.** `world_to_local_coords` and `local_to_world_coords` are inverse to each other. -/
theorem local_world {L : Locator K} {n : Nat} {p q : V3 K} (h : toLocal L n p = some q) : toWorld L n q = p := by
  unfold toLocal Xf.inv at h
  unfold toWorld
  split at h
  · simp at h
  · next hz =>
    push Not at hz
    obtain ⟨h1, h2, h3⟩ := hz
    simp only [Option.map_some, Option.some.injEq] at h
    subst h
    simp only [Xf.apply]
    ext <;> simp only <;> field_simp <;> ring

theorem world_local (L : Locator K) (n : Nat) (p : V3 K) :
    let s := (L.xf.getD n ⟨0, 0⟩).s
    (s.x ≠ 0 ∧ s.y ≠ 0 ∧ s.z ≠ 0 → toLocal L n (toWorld L n p) = some p) ∧
    (¬ (s.x ≠ 0 ∧ s.y ≠ 0 ∧ s.z ≠ 0) → toLocal L n (toWorld L n p) = none) := by
  unfold toLocal toWorld Xf.inv
  generalize L.xf.getD n ⟨0, 0⟩ = f
  intro s
  constructor
  · rintro ⟨h1, h2, h3⟩
    rw [if_neg (by push Not; exact ⟨h1, h2, h3⟩)]
    have h1' : f.s.x ≠ 0 := h1
    have h2' : f.s.y ≠ 0 := h2
    have h3' : f.s.z ≠ 0 := h3
    simp only [Option.map_some, Option.some.injEq, Xf.apply]
    ext <;> simp only <;> field_simp <;> ring
  · intro h
    rw [if_pos]
    · rfl
    · by_contra hc
      push Not at hc
      exact h hc

theorem mk_xf {dens : Batch K} {feat : Option (Batch K)} {vs tr : PArg K} {al : Bool} {v : Volumes K}
    (hmk : mk dens feat vs tr al = .ok v) : ∃ vl tl, handleVoxel vs v.dens.N = .ok vl ∧ convProp tr v.dens.N = .ok tl ∧
      ∀ n < v.dens.N, v.loc.xf.getD n ⟨0, 0⟩ = mkXf (v.loc.sizes.getD n (0, 0, 0)) (vl.getD n 0) (tl.getD n 0) := by
  unfold mk at hmk
  obtain ⟨⟨t, sizes⟩, hr, h⟩ := bind_ok hmk
  obtain ⟨L, hL, h⟩ := bind_ok h
  obtain ⟨hb, hs, hres, hal, hx, vl, tl, e1, e2, e3⟩ := mkLocator_spec hL
  simp only at hs e1 e2 e3
  have : v.dens = t ∧ v.loc = L := by
    cases feat with
    | none =>
      simp only [Except.ok.injEq] at h
      subst h
      exact ⟨rfl, rfl⟩
    | some f =>
      obtain ⟨u, hu, h⟩ := bind_ok h
      simp only [Except.ok.injEq] at h
      subst h
      exact ⟨rfl, rfl⟩
  rw [this.1, this.2, hs]
  exact ⟨vl, tl, e1, e2, e3⟩

/-- **C62i.** World coordinates with `align_corners`: the centre of voxel `(d, h, w)` of volume `n` is its distance from the
middle of that volume, in voxels, times the voxel size, minus the translation; neighbouring voxels are one voxel size apart. -/
theorem coordWorld_true {dens : Batch K} {feat : Option (Batch K)} {vs tr : PArg K} {v : Volumes K}
    (hmk : mk dens feat vs tr true = .ok v) (hR : NoUnit v.dens.size) {n : Nat} (hn : n < v.dens.N)
    (hu : NoUnit (v.loc.sizes.getD n (0, 0, 0))) :
    ∃ vl tl, handleVoxel vs v.dens.N = .ok vl ∧ convProp tr v.dens.N = .ok tl ∧ ∀ d h w,
      coordWorld v.loc n d h w = some ⟨centre (v.loc.sizes.getD n (0, 0, 0)).2.2 (vl.getD n 0).x (tl.getD n 0).x w,
        centre (v.loc.sizes.getD n (0, 0, 0)).2.1 (vl.getD n 0).y (tl.getD n 0).y h,
        centre (v.loc.sizes.getD n (0, 0, 0)).1 (vl.getD n 0).z (tl.getD n 0).z d⟩ := by
  obtain ⟨hw, hal⟩ := mk_wf hmk
  obtain ⟨vl, tl, e1, e2, e3⟩ := mk_xf hmk
  refine ⟨vl, tl, e1, e2, fun d h w => ?_⟩
  have hn' : n < v.loc.sizes.length := by rw [hw.len]; exact hn
  have hg : v.loc.sizes.getD n (0, 0, 0) = v.loc.sizes[n] := List.getD_eq_getElem _ _ hn'
  have ne : ∀ {a : Nat}, a ≠ 1 → (a : K) - 1 ≠ 0 := by
    intro a ha h
    exact ha (by exact_mod_cast sub_eq_zero.mp h)
  rw [hg] at hu
  unfold coordWorld
  rw [coordLocal_true hal hn' hu (by rw [hw.res]; exact hR)]
  simp only [Option.map_some, Option.some.injEq, toWorld, e3 n hn, hg, mkXf, Xf.apply, centre]
  have a1 := ne hu.1
  have a2 := ne hu.2.1
  have a3 := ne hu.2.2
  ext <;> simp only <;> field_simp <;> ring

/-- With `align_corners`, indexing keeps the coordinates of every voxel, whatever the sizes of the other volumes. -/
theorem getitem_coords {v u : Volumes K} (h : WF v) (hal : v.loc.align = true) {idx : List Int} {js : List Nat}
    (hs : T3d.select (List.range v.dens.N) idx = .ok js) (hu : getitem v idx = .ok u) (hR : NoUnit v.dens.size) {i : Nat}
    (hi : i < js.length) (hs1 : NoUnit (v.loc.sizes.getD js[i] (0, 0, 0))) (d hh w : Nat) :
    coordLocal u.loc i d hh w = coordLocal v.loc js[i] d hh w ∧ coordWorld u.loc i d hh w = coordWorld v.loc js[i] d hh w := by
  have hne : idx ≠ [] := by
    rintro rfl
    have := (select_lt hs).1
    simp only [List.length_nil] at this
    omega
  obtain ⟨u', hu', hw, -, -, e1, e2, e3, e4⟩ := getitem_spec h hs hne
  rw [hu] at hu'
  cases hu'
  have hj : js[i] < v.loc.sizes.length := by rw [h.len]; exact (select_lt hs).2 _ (List.getElem_mem hi)
  have hi' : i < u.loc.sizes.length := by rw [e1]; simpa using hi
  have es : u.loc.sizes[i] = v.loc.sizes[js[i]] := by
    simp only [e1, List.getElem_map]
    exact List.getD_eq_getElem _ _ hj
  rw [List.getD_eq_getElem _ _ hj] at hs1
  have hc : coordLocal u.loc i d hh w = coordLocal v.loc js[i] d hh w := by
    rw [coordLocal_true e4 hi' (by rw [es]; exact hs1) (by rw [e3, h.res]; exact hR),
      coordLocal_true hal hj hs1 (by rw [h.res]; exact hR), es]
  refine ⟨hc, ?_⟩
  unfold coordWorld
  rw [hc]
  congr 1
  funext p
  unfold toWorld
  rw [e2, List.getD_eq_getElem _ _ (by simpa using hi), List.getElem_map]

/-- **C62j.** Without `align_corners` (volumes of one size) the transform is the same, so that neighbouring voxels are
`(S - 1) / S` voxel sizes apart. -/
theorem coordWorld_false {dens : Batch K} {feat : Option (Batch K)} {vs tr : PArg K} {v : Volumes K}
    (hmk : mk dens feat vs tr false = .ok v) (hh : Homog v) (hR : NoUnit v.dens.size) {n : Nat} (hn : n < v.dens.N) :
    ∃ vl tl, handleVoxel vs v.dens.N = .ok vl ∧ convProp tr v.dens.N = .ok tl ∧ ∀ d h w, inside v.dens.size d h w →
      coordWorld v.loc n d h w = some
        ⟨centre v.dens.size.2.2 ((vl.getD n 0).x * (((v.dens.size.2.2 : K) - 1) / v.dens.size.2.2)) (tl.getD n 0).x w,
          centre v.dens.size.2.1 ((vl.getD n 0).y * (((v.dens.size.2.1 : K) - 1) / v.dens.size.2.1)) (tl.getD n 0).y h,
          centre v.dens.size.1 ((vl.getD n 0).z * (((v.dens.size.1 : K) - 1) / v.dens.size.1)) (tl.getD n 0).z d⟩ := by
  obtain ⟨hw, hal⟩ := mk_wf hmk
  obtain ⟨vl, tl, e1, e2, e3⟩ := mk_xf hmk
  refine ⟨vl, tl, e1, e2, fun d h w hi => ?_⟩
  have hg : v.loc.sizes.getD n (0, 0, 0) = v.dens.size := by
    rw [hh, List.getD_eq_getElem _ _ (by simpa using hn)]
    simp
  have pos : ∀ {a b : Nat}, a < b → (b : K) ≠ 0 := by
    intro a b h e
    have : b = 0 := by exact_mod_cast e
    omega
  unfold coordWorld
  rw [coordLocal_false hal (by rw [hw.res]; intro s hs; rw [hh] at hs; exact List.eq_of_mem_replicate hs) (by rw [hw.res]; exact hR) n
    (by rw [hw.res]; exact hi)]
  simp only [Option.map_some, Option.some.injEq, toWorld, e3 n hn, hg, mkXf, Xf.apply, centre, hw.res]
  have a1 := pos hi.1
  have a2 := pos hi.2.1
  have a3 := pos hi.2.2
  ext <;> simp only <;> field_simp <;> ring

/-! ## Sampling -/

theorem trilinear_eq (t : Tens K) (n c : Nat) (z y x : K) :
    trilinear t n c z y x = Uv.lin (fun k => Uv.lin (fun j => Uv.lin (fun i => voxel t n c k j i) x) y) z := by
  unfold trilinear Uv.lin
  ring

theorem gridSample_eq (c : Cfg) (t : Tens K) (n ch : Nat) (p : V3 K) : gridSample c t n ch p =
    along c.mode (fun k => along c.mode (fun j => along c.mode (fun i => voxel t n ch k j i)
      (padCoord c.align c.pad t.size.2.2 (unnorm c.align t.size.2.2 p.x)))
      (padCoord c.align c.pad t.size.2.1 (unnorm c.align t.size.2.1 p.y)))
      (padCoord c.align c.pad t.size.1 (unnorm c.align t.size.1 p.z)) := by
  unfold gridSample along
  cases c.mode
  · exact trilinear_eq _ _ _ _ _ _
  · rfl

theorem along_int (m : Mode) (g : Int → K) (n : Int) : along m g (n : K) = g n := by
  cases m
  · exact Uv.lin_int g n
  · simp only [along, Uv.roundEven_int]

theorem sample_at {c : Cfg} {t : Tens K} {n ch d h w : Nat} {p : V3 K} (hi : inside t.size d h w)
    (hx : unnorm c.align t.size.2.2 p.x = (w : K)) (hy : unnorm c.align t.size.2.1 p.y = (h : K))
    (hz : unnorm c.align t.size.1 p.z = (d : K)) : gridSample c t n ch p = t.val n ch d h w := by
  obtain ⟨i1, i2, i3⟩ := hi
  have key : ∀ {S k : Nat} (_ : k < S), padCoord c.align c.pad (S : Int) (k : K) = ((k : Int) : K) := by
    intro S k hk
    rw [Uv.padCoord_id]
    · push_cast; rfl
    · positivity
    · have : ((k + 1 : Nat) : K) ≤ (S : K) := by exact_mod_cast hk
      push_cast at this ⊢
      linarith
  rw [gridSample_eq, hx, hy, hz, key i1, key i2, key i3, along_int, along_int, along_int]
  unfold voxel
  rw [if_pos (by omega)]
  simp

theorem unnorm_true {S : Nat} (hS : S ≠ 1) (k : K) : unnorm true (S : Int) (-1 + 2 * k / ((S : K) - 1)) = k := by
  have : (S : K) - 1 ≠ 0 := by
    intro h
    exact hS (by exact_mod_cast sub_eq_zero.mp h)
  unfold unnorm
  simp only [if_true, Int.cast_natCast]
  field_simp
  ring

theorem unnorm_false {S : Nat} (hS : (S : K) ≠ 0) (k : K) : unnorm false (S : Int) (-1 + (2 * k + 1) / (S : K)) = k := by
  unfold unnorm
  simp only [Bool.false_eq_true, if_false, Int.cast_natCast]
  field_simp
  ring

/-- **C62k.** For volumes of one size, sampling the tensors at the local coordinates of a voxel returns the voxel: both values of
`align_corners`, all modes and paddings. -/
theorem sample_coord {v : Volumes K} (hw : WF v) (hh : Homog v) (hR : NoUnit v.dens.size) {n : Nat} (hn : n < v.dens.N)
    (mode : Mode) (pad : Padding) {t : Tens K} (ht : t.size = v.dens.size) (ch : Nat) {d h w : Nat}
    (hi : inside v.dens.size d h w) :
    ∃ p, coordLocal v.loc n d h w = some p ∧ gridSample ⟨mode, v.loc.align, pad⟩ t n ch p = t.val n ch d h w := by
  have hn' : n < v.loc.sizes.length := by rw [hw.len]; exact hn
  have hg : v.loc.sizes[n] = v.dens.size := by
    have : v.loc.sizes = List.replicate v.dens.N v.dens.size := hh
    simp [this]
  have hall : ∀ s ∈ v.loc.sizes, s = v.loc.res := by
    rw [hw.res]; intro s hs; rw [hh] at hs; exact List.eq_of_mem_replicate hs
  cases hal : v.loc.align with
  | true =>
    refine ⟨_, coordLocal_true hal hn' (by rw [hg]; exact hR) (by rw [hw.res]; exact hR) d h w, ?_⟩
    rw [hg]
    refine sample_at (by rw [ht]; exact hi) ?_ ?_ ?_ <;> simp only [ht]
    · exact unnorm_true hR.2.2 _
    · exact unnorm_true hR.2.1 _
    · exact unnorm_true hR.1 _
  | false =>
    refine ⟨_, coordLocal_false hal hall (by rw [hw.res]; exact hR) n (by rw [hw.res]; exact hi), ?_⟩
    rw [hw.res]
    have pos : ∀ {a b : Nat}, a < b → (b : K) ≠ 0 := by
      intro a b h e
      have : b = 0 := by exact_mod_cast e
      omega
    refine sample_at (by rw [ht]; exact hi) ?_ ?_ ?_ <;> simp only [ht]
    · exact unnorm_false (pos hi.2.2) _
    · exact unnorm_false (pos hi.2.1) _
    · exact unnorm_false (pos hi.1) _

/-- The points sampled on a ray are those of the ray in world coordinates. -/
theorem rayLocal_eq (L : Locator K) (n : Nat) (o d : V3 K) (len : K) :
    rayLocal L n o d len = toLocal L n ⟨o.x + len * d.x, o.y + len * d.y, o.z + len * d.z⟩ := by
  unfold rayLocal toLocal
  cases (L.xf.getD n ⟨0, 0⟩).inv with
  | none => rfl
  | some f =>
    simp only [Option.map_some, Option.some.injEq, Xf.apply]
    ext <;> simp only <;> ring

/-- **C62l.** `VolumeSampler` on volumes of one size returns, on every ray that meets the centre of a voxel in world coordinates, the
value of this voxel. -/
theorem sampler_voxel {v : Volumes K} (hw : WF v) (hh : Homog v) (hR : NoUnit v.dens.size) {n : Nat} (hn : n < v.dens.N)
    (mode : Mode) (pad : Padding) {t : Tens K} (ht : t.size = v.dens.size) (ch : Nat) {d h w : Nat}
    (hi : inside v.dens.size d h w) {o dir : V3 K} {len : K}
    (hp : coordWorld v.loc n d h w = some ⟨o.x + len * dir.x, o.y + len * dir.y, o.z + len * dir.z⟩)
    (hs : (v.loc.xf.getD n ⟨0, 0⟩).s.x ≠ 0 ∧ (v.loc.xf.getD n ⟨0, 0⟩).s.y ≠ 0 ∧ (v.loc.xf.getD n ⟨0, 0⟩).s.z ≠ 0) :
    sampler v mode pad t n ch o dir len = some (t.val n ch d h w) := by
  obtain ⟨p, h1, h2⟩ := sample_coord hw hh hR hn mode pad ht ch hi
  unfold coordWorld at hp
  rw [h1] at hp
  simp only [Option.map_some, Option.some.injEq] at hp
  unfold sampler
  rw [rayLocal_eq, ← hp, (world_local v.loc n p).1 hs]
  simp only [Option.map_some, h2]

open P3D.PtsVol (hat hat_py) in
/-- Linear interpolation as a sum over all indices. -/
theorem lin_hat {S : Nat} {g : Int → K} (hg : ∀ i, ¬ (0 ≤ i ∧ i < (S : Int)) → g i = 0) (x : K) :
    Uv.lin g x = ∑ i ∈ Finset.range S, hat (x - (i : K)) * g i := by
  have key : ∀ (c : Int) (A : K), ∑ i ∈ Finset.range S, (if c = (i : Int) then A else 0) * g i = A * g c := by
    intro c A
    by_cases hc : 0 ≤ c ∧ c < (S : Int)
    · rw [Finset.sum_eq_single c.toNat]
      · rw [if_pos (by omega)]
        congr 2
        omega
      · intro b _ hb
        rw [if_neg (by omega), zero_mul]
      · intro hn
        exact absurd (Finset.mem_range.mpr (by omega)) hn
    · rw [hg c hc, mul_zero]
      apply Finset.sum_eq_zero
      intro i hi
      rw [Finset.mem_range] at hi
      rw [if_neg (by omega), zero_mul]
  unfold Uv.lin
  rw [← key, ← key, ← Finset.sum_add_distrib]
  apply Finset.sum_congr rfl
  intro i _
  rw [← add_mul, hat_py x (i : Int)]
  simp

/-- The specification of trilinear interpolation: all voxels, weighted by the product of the three kernels. -/
def interp (t : Tens K) (n c : Nat) (z y x : K) : K :=
  ∑ k ∈ Finset.range t.size.1, ∑ j ∈ Finset.range t.size.2.1, ∑ i ∈ Finset.range t.size.2.2,
    PtsVol.hat (z - k) * PtsVol.hat (y - j) * PtsVol.hat (x - i) * t.val n c k j i

theorem trilinear_interp (t : Tens K) (n c : Nat) (z y x : K) : trilinear t n c z y x = interp t n c z y x := by
  have h1 : ∀ k j : Int, ∀ i : Int, ¬ (0 ≤ i ∧ i < (t.size.2.2 : Int)) → voxel t n c k j i = 0 := by
    intro k j i hi
    unfold voxel
    rw [if_neg (by tauto)]
  have h2 : ∀ k j : Int, ¬ (0 ≤ j ∧ j < (t.size.2.1 : Int)) → Uv.lin (fun i => voxel t n c k j i) x = 0 := by
    intro k j hj
    have : ∀ i, voxel t n c k j i = 0 := by
      intro i
      unfold voxel
      rw [if_neg (by tauto)]
    simp [Uv.lin, this]
  have h3 : ∀ k : Int, ¬ (0 ≤ k ∧ k < (t.size.1 : Int)) → Uv.lin (fun j => Uv.lin (fun i => voxel t n c k j i) x) y = 0 := by
    intro k hk
    have : ∀ j i, voxel t n c k j i = 0 := by
      intro j i
      unfold voxel
      rw [if_neg (by tauto)]
    simp [Uv.lin, this]
  rw [trilinear_eq, lin_hat h3]
  unfold interp
  apply Finset.sum_congr rfl
  intro k hk
  rw [lin_hat (h2 k), Finset.mul_sum]
  apply Finset.sum_congr rfl
  intro j hj
  rw [lin_hat (h1 k j), Finset.mul_sum, Finset.mul_sum]
  apply Finset.sum_congr rfl
  intro i hi
  rw [Finset.mem_range] at hi hj hk
  unfold voxel
  rw [if_pos (by omega)]
  simp only [Int.toNat_natCast]
  ring

/-- The grid position of a world coordinate: inverse of `centre`. -/
def position (S : Nat) (vs tr : K) (p : K) : K := (p + tr) / vs + ((S : K) - 1) / 2

theorem position_centre {S : Nat} {vs : K} (hv : vs ≠ 0) (tr : K) (k : Nat) : position S vs tr (centre S vs tr k) = k := by
  unfold position centre
  field_simp
  ring

theorem unnorm_position {S : Nat} (hS : S ≠ 1) {vs : K} (hv : vs ≠ 0) (tr p : K) :
    unnorm true (S : Int) (p * (1 / (((S : K) - 1) * vs * (1 / 2))) + - -tr / (((S : K) - 1) * vs * (1 / 2)))
      = position S vs tr p := by
  have : (S : K) - 1 ≠ 0 := by
    intro h
    exact hS (by exact_mod_cast sub_eq_zero.mp h)
  unfold unnorm position
  simp only [if_true, Int.cast_natCast]
  field_simp

/-- **C62m.** `VolumeSampler` (bilinear, zeros) on volumes of one size with `align_corners`: at every point of every ray the result
is the trilinear interpolation of the voxels at their world positions, voxels outside counting as zero. -/
theorem sampler_spec {dens : Batch K} {feat : Option (Batch K)} {vs tr : PArg K} {v : Volumes K}
    (hmk : mk dens feat vs tr true = .ok v) (hh : Homog v) (hR : NoUnit v.dens.size) {n : Nat} (hn : n < v.dens.N) {t : Tens K}
    (ht : t.size = v.dens.size) :
    ∃ vl tl, handleVoxel vs v.dens.N = .ok vl ∧ convProp tr v.dens.N = .ok tl ∧
      ((vl.getD n 0).x ≠ 0 → (vl.getD n 0).y ≠ 0 → (vl.getD n 0).z ≠ 0 → ∀ ch o dir len,
        sampler v .bilinear .zeros t n ch o dir len = some (interp t n ch
          (position t.size.1 (vl.getD n 0).z (tl.getD n 0).z (o.z + len * dir.z))
          (position t.size.2.1 (vl.getD n 0).y (tl.getD n 0).y (o.y + len * dir.y))
          (position t.size.2.2 (vl.getD n 0).x (tl.getD n 0).x (o.x + len * dir.x)))) := by
  obtain ⟨hw, hal⟩ := mk_wf hmk
  obtain ⟨vl, tl, e1, e2, e3⟩ := mk_xf hmk
  refine ⟨vl, tl, e1, e2, fun hx hy hz ch o dir len => ?_⟩
  have hg : v.loc.sizes.getD n (0, 0, 0) = v.dens.size := by
    rw [hh, List.getD_eq_getElem _ _ (by simpa using hn)]
    simp
  have ne : ∀ {a : Nat}, a ≠ 1 → (a : K) - 1 ≠ 0 := by
    intro a ha h
    exact ha (by exact_mod_cast sub_eq_zero.mp h)
  have nz : ∀ {a : Nat} {c : K}, a ≠ 1 → c ≠ 0 → ((a : K) - 1) * c * (1 / 2) ≠ 0 := by
    intro a c ha hc
    have := ne ha
    positivity
  unfold sampler
  rw [rayLocal_eq]
  unfold toLocal Xf.inv
  rw [e3 n hn, hg]
  rw [if_neg (by push Not; exact ⟨nz hR.2.2 hx, nz hR.2.1 hy, nz hR.1 hz⟩)]
  simp only [mkXf, Option.map_some, Option.some.injEq, gridSample, padCoord, Xf.apply, hal]
  rw [trilinear_interp, ht, unnorm_position hR.2.2 hx, unnorm_position hR.2.1 hy, unnorm_position hR.1 hz]

theorem loc_unnorm (al : Bool) (S : Nat) (p : K) : PtsVol.loc al S p = unnorm al (S : Int) p := by
  unfold PtsVol.loc unnorm
  cases al
  · simp only [Bool.false_eq_true, if_false, Int.cast_natCast]; ring
  · simp only [if_true, Int.cast_natCast]; ring

/-- **C62n.** Adding points to a volume in trilinear mode is the transpose of sampling the volume: the weights given to the voxels by
an unmasked point, applied to a volume, give the sampled value at the point (with the same `align_corners`, for points whose
location is not negative). -/
theorem splat_sample (I : PtsVol.In K) (hs : I.splat = true) (n i : Nat) (hm : I.mask n i ≠ 0)
    (h : 0 ≤ (PtsVol.locOf I n i).x ∧ 0 ≤ (PtsVol.locOf I n i).y ∧ 0 ≤ (PtsVol.locOf I n i).z) (t : Tens K)
    (ht : (t.size.2.2, t.size.2.1, t.size.1) = I.gs n) (ch : Nat) :
    ∑ z ∈ Finset.range t.size.1, ∑ y ∈ Finset.range t.size.2.1, ∑ x ∈ Finset.range t.size.2.2,
      PtsVol.weight I n i ((x : Int), (y : Int), (z : Int)) * t.val n ch z y x
      = gridSample ⟨.bilinear, I.align, .zeros⟩ t n ch (I.pos n i) := by
  unfold gridSample
  simp only [padCoord]
  rw [trilinear_interp, ← loc_unnorm, ← loc_unnorm, ← loc_unnorm]
  unfold interp
  have e : (PtsVol.locOf I n i) = ⟨PtsVol.loc I.align t.size.2.2 (I.pos n i).x, PtsVol.loc I.align t.size.2.1 (I.pos n i).y,
      PtsVol.loc I.align t.size.1 (I.pos n i).z⟩ := by
    unfold PtsVol.locOf
    rw [← ht]
  refine Finset.sum_congr rfl fun z hz => Finset.sum_congr rfl fun y hy => Finset.sum_congr rfl fun x hx => ?_
  rw [Finset.mem_range] at hz hy hx
  rw [PtsVol.weight_splat I hs n i (fun _ => h) _ ((PtsVol.inGrid_iff _ _).mpr ?_), if_neg hm, e]
  · push_cast
    ring
  · rw [← ht]
    unfold PtsVol.inR
    simp only
    omega

/-! ## Arguments -/

/-- **C62o.** The documented forms of `voxel_size`, and of `volume_translation` except the tensor of one element, which raises an
IndexError. -/
theorem voxel_forms (b : Nat) (hb : 0 < b) (c x y z : K) (rows : List (List K)) (hr : rows.length = b) :
    handleVoxel (.scalar c) b = .ok (List.replicate b ⟨c, c, c⟩) ∧
    handleVoxel (.seq [x, y, z]) b = .ok (List.replicate b ⟨x, y, z⟩) ∧
    handleVoxel (.tens1 [x, y, z]) b = .ok (List.replicate b ⟨x, y, z⟩) ∧
    handleVoxel (.tens1 [c]) b = .ok (List.replicate b ⟨c, c, c⟩) ∧
    (handleVoxel (.tens2 3 rows) b).toOption = some (rows.map v3) ∧
    ((∀ r ∈ rows, r.length = 1) → handleVoxel (.tens2 1 rows) b =
      .ok (rows.map fun r => ⟨r.getD 0 0, r.getD 0 0, r.getD 0 0⟩)) ∧
    convProp (.seq [x, y, z]) b = .ok (List.replicate b ⟨x, y, z⟩) ∧
    convProp (.tens1 [x, y, z]) b = .ok (List.replicate b ⟨x, y, z⟩) ∧
    convProp (.tens2 3 rows) b = .ok (rows.map v3) ∧
    convProp (.tens1 [c]) b = .error .index := by
  have h2 : convProp (.tens2 3 rows) b = .ok (rows.map v3) := by
    unfold convProp
    simp only [hr, and_true, or_true, if_true]
    by_cases e : b = 1
    · subst e
      obtain ⟨r, rfl⟩ := List.length_eq_one_iff.mp hr
      simp
    · rw [if_neg e]
  refine ⟨?_, rfl, rfl, rfl, ?_, ?_, rfl, rfl, h2, rfl⟩
  · simp [handleVoxel, convProp, v3]
  · have : handleVoxel (.tens2 3 rows) b = convProp (.tens2 3 rows) b := rfl
    rw [this, h2]
    rfl
  · intro h1
    by_cases e : b = 1
    · subst e
      obtain ⟨r, rfl⟩ := List.length_eq_one_iff.mp hr
      have := h1 r (by simp)
      obtain ⟨q, rfl⟩ := List.length_eq_one_iff.mp this
      simp [handleVoxel, convProp, v3]
    · have : handleVoxel (.tens2 1 rows) b =
          convProp (.tens2 3 (rows.map fun r => [r.getD 0 0, r.getD 0 0, r.getD 0 0])) b := by
        unfold handleVoxel
        split <;> simp_all
      rw [this]
      unfold convProp
      simp only [List.length_map, hr, and_true, or_true, if_true, if_neg e, List.map_map]
      rfl

/-! ## Witnesses and examples -/

/-- Entry `(c, d, h, w)` is `100 n + 10 c + ...`: all different. -/
def exTens (N : Nat) (s : Size) : Tens ℚ := ⟨N, 1, s, fun n c d h w => 1000 * n + 500 * c + 100 * d + 10 * h + w⟩

def exGrid (s : Size) : Grid ℚ := ⟨1, s, fun c d h w => 500 * c + 100 * d + 10 * h + w + 1⟩

def getOk {α : Type} [Inhabited α] (x : Except Err α) : α := match x with | .ok a => a | .error _ => default

instance : Inhabited (Volumes ℚ) := ⟨⟨exTens 0 (0, 0, 0), none, ⟨[], (0, 0, 0), true, []⟩⟩⟩

/-- Volumes without `align_corners`. -/
def exFalse : Volumes ℚ := getOk (mk (.tensor (exTens 2 (2, 2, 4))) none (.scalar 1) (.seq [0, 0, 0]) false)

/-- **C62p.** Indexing a batch without `align_corners` gives one with `align_corners`: the coordinates of the voxels change. -/
theorem getitem_align_witness : ∃ u, getitem exFalse [0] = .ok u ∧ exFalse.loc.align = false ∧ u.loc.align = true ∧
    coordLocal exFalse.loc 0 0 0 0 = some ⟨-3 / 4, -1 / 2, -1 / 2⟩ ∧ coordLocal u.loc 0 0 0 0 = some ⟨-1, -1, -1⟩ :=
  ⟨_, rfl, by decide +kernel, by decide +kernel, by decide +kernel, by decide +kernel⟩

/-- Two volumes of different sizes. -/
def exHet (al : Bool) : Volumes ℚ :=
  getOk (mk (.list [exGrid (2, 2, 2), exGrid (2, 2, 4)]) none (.scalar 1) (.seq [0, 0, 0]) al)

/-- **C62q.** `VolumeSampler` on a padded volume: at the world position of a voxel of the smaller volume the result is not its value (the
local coordinates of the volume are used as coordinates of the padded tensor). -/
theorem sampler_padding_witness : coordWorld (exHet true).loc 0 0 0 1 = some ⟨1 / 2, -1 / 2, -1 / 2⟩ ∧
    (exHet true).dens.val 0 0 0 0 1 = 2 ∧
    sampler (exHet true) .bilinear .zeros (exHet true).dens 0 0 ⟨1 / 2, -1 / 2, -1 / 2⟩ 0 0 = some 0 := by
  refine ⟨by decide +kernel, by decide +kernel, by decide +kernel⟩

/-- **C62r.** Without `align_corners` the local coordinates of a padded volume are not those of its own grid: the first voxel of the
smaller volume is at -1/4 instead of -1/2, and the last at 5/4. -/
theorem coord_padding_witness : (coordLocal (exHet false).loc 0 0 0 0).map (fun p => p.x) = some (-1 / 4) ∧
    (coordLocal (exHet false).loc 0 0 0 1).map (fun p => p.x) = some (5 / 4) ∧
    axis (K := ℚ) false 2 0 = -1 / 2 ∧ axis (K := ℚ) false 2 1 = 1 / 2 := by
  refine ⟨by decide +kernel, by decide +kernel, by decide +kernel, by decide +kernel⟩

example : (mk (.list [exGrid (2, 2, 2), exGrid (2, 2, 4)]) none (.scalar 1) (.seq [0, 0, 0]) true).isOk = true := by decide +kernel

example : (exHet true).loc.res = (2, 2, 4) ∧ (exHet true).dens.val 0 0 0 0 3 = 0 ∧ (exHet true).dens.val 1 0 0 0 3 = 4 := by
  decide +kernel

example : updatePadded (exHet true) (.tensor (exTens 2 (2, 2, 4))) none = .error .value :=
  (updatePadded_iff _ _ (by decide +kernel) (by decide +kernel)).2 (by unfold Homog; decide +kernel) none

example : (coordWorld (exHet true).loc 0 1 0 1).map (fun p => (p.x, p.y, p.z)) = some (1 / 2, -1 / 2, 1 / 2) ∧
    (coordWorld (exHet true).loc 1 1 0 3).map (fun p => (p.x, p.y, p.z)) = some (3 / 2, -1 / 2, 1 / 2) := by decide +kernel

example : coordLocal (getOk (mk (.tensor (exTens 1 (1, 2, 2))) none (.scalar 1) (.seq [0, 0, 0]) true)).loc 0 0 0 0 = none := by
  decide +kernel

example : sampler (getOk (mk (.tensor (exTens 1 (2, 2, 3))) none (.scalar 1) (.seq [0, 0, 0]) true)) .bilinear .zeros
    (exTens 1 (2, 2, 3)) 0 0 ⟨0, 0, 0⟩ ⟨1, 0, 0⟩ (1 / 2) = some (113 / 2) := by decide +kernel

end P3D.Vol
