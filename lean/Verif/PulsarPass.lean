/-
Pulsar: the forward pass over the whole film and the accumulation of gradients in the backward pass.

* `csrc/pulsar/include/renderer.forward.device.h:35-280` (`forward`): sorting, area with spheres, regions, selection, background
* `csrc/pulsar/include/renderer.h:36-62` (`IntersectInfoMinMax`), `renderer.create_selector.device.h:20-37`, `renderer.fill_bg.device.h:20-57`
* `csrc/pulsar/include/renderer.calc_gradients.device.h:22-190` (`calc_gradients`), `renderer.backward.device.h:20-184` (`backward`), `renderer.backward_dbg.device.h:20-150`
* `csrc/pulsar/include/renderer.norm_sphere_gradients.device.h:22-75`, `renderer.norm_cam_gradients.device.h:22-32`
* `csrc/pulsar/host/commands.h:194-288, 339-370`, `csrc/pulsar/gpu/commands.h:480-520` (the macros for sorting, selection, sums and launches)

What happens at a pixel is in `Verif.PulsarRender`, `Verif.PulsarDraw`, `Verif.PulsarGrad`.  Simplifications: coordinates are natural numbers (16 bits are enough for the film sizes the
constructor accepts), sums are exact (no rounding, so atomic additions commute), sorting is a permutation that depends only on the depths, the contribution of a tracked sphere to
a gradient is an argument.
-/
import Verif.PulsarRender
import Mathlib.Data.List.Pairwise
import Mathlib.Algebra.BigOperators.Group.List.Basic
import Mathlib.Tactic.Ring
import Mathlib.Tactic.FieldSimp
import Mathlib.Tactic.NormNum

set_option linter.unusedSectionVars false

namespace P3D.PulsarPass

/-! ## Bounds of spheres -/

/-- `IntersectInfo`: the pixels of a sphere, `max` exclusive. -/
structure Box where
  minX : Nat
  maxX : Nat
  minY : Nat
  maxY : Nat
  deriving DecidableEq, Repr

/-- `MAX_USHORT`. -/
def big : Nat := 65535

/-- A sphere that is not visible (`renderer.calc_signature.device.h:68-73`). -/
def invalid : Box := ⟨big, big, big, big⟩

/-- `IntersectInfoMinMax`, `renderer.h:42-62`. -/
def minMax (a b : Box) : Box :=
  if b = invalid then a else if a = invalid then b
  else ⟨min a.minX b.minX, max a.maxX b.maxX, min a.minY b.minY, max a.maxY b.maxY⟩

/-- The area with spheres, `renderer.forward.device.h:131-146`. -/
def area (l : List Box) : Box := l.foldl minMax ⟨big, 0, big, 0⟩

/-- The pixel is within the bounds of the sphere. -/
def Box.has (b : Box) (x y : Nat) : Prop := b.minX ≤ x ∧ x < b.maxX ∧ b.minY ≤ y ∧ y < b.maxY


/-- The boxes of visible spheres begin left of the greatest coordinate. -/
def Sane (l : List Box) : Prop := ∀ b ∈ l, b = invalid ∨ b.minX < big

theorem foldl_minMax (l : List Box) (hl : Sane l) (a : Box) (ha : a ≠ invalid) :
    l.foldl minMax a = ⟨((l.filter (· ≠ invalid)).map (·.minX)).foldl min a.minX, ((l.filter (· ≠ invalid)).map (·.maxX)).foldl max a.maxX,
      ((l.filter (· ≠ invalid)).map (·.minY)).foldl min a.minY, ((l.filter (· ≠ invalid)).map (·.maxY)).foldl max a.maxY⟩ := by
  induction l generalizing a with
  | nil => rfl
  | cons b l ih =>
    have hl' : Sane l := fun c hc => hl c (List.mem_cons_of_mem _ hc)
    rw [List.foldl_cons]
    by_cases hb : b = invalid
    · have e : minMax a b = a := by rw [minMax, if_pos hb]
      rw [e, ih hl' a ha, List.filter_cons_of_neg (by simpa using hb)]
    · have e : minMax a b = ⟨min a.minX b.minX, max a.maxX b.maxX, min a.minY b.minY, max a.maxY b.maxY⟩ := by rw [minMax, if_neg hb, if_neg ha]
      have hm : minMax a b ≠ invalid := by
        rw [e]
        intro h
        have h1 := congrArg Box.minX h
        simp only [invalid] at h1
        rcases hl b (List.mem_cons_self ..) with h2 | h2
        · exact hb h2
        · omega
      rw [ih hl' _ hm, e, List.filter_cons_of_pos (by simpa using hb)]
      rfl

theorem foldl_min_spec (l : List Nat) (a : Nat) : l.foldl min a ≤ a ∧ ∀ x ∈ l, l.foldl min a ≤ x := by
  induction l generalizing a with
  | nil => simp
  | cons b l ih =>
    obtain ⟨h1, h2⟩ := ih (min a b)
    refine ⟨by rw [List.foldl_cons]; omega, ?_⟩
    intro x hx
    rw [List.foldl_cons]
    rcases List.mem_cons.mp hx with rfl | hx
    · omega
    · exact h2 x hx

theorem foldl_max_spec (l : List Nat) (a : Nat) : a ≤ l.foldl max a ∧ ∀ x ∈ l, x ≤ l.foldl max a := by
  induction l generalizing a with
  | nil => simp
  | cons b l ih =>
    obtain ⟨h1, h2⟩ := ih (max a b)
    refine ⟨by rw [List.foldl_cons]; omega, ?_⟩
    intro x hx
    rw [List.foldl_cons]
    rcases List.mem_cons.mp hx with rfl | hx
    · omega
    · exact h2 x hx

theorem start_valid : (⟨big, 0, big, 0⟩ : Box) ≠ invalid := by decide

/-- The area contains every pixel of every visible sphere. -/
theorem area_covers (l : List Box) (hl : Sane l) (b : Box) (hb : b ∈ l) (hv : b ≠ invalid) (x y : Nat) (h : b.has x y) : (area l).has x y := by
  have hm : b ∈ l.filter (· ≠ invalid) := List.mem_filter.mpr ⟨hb, by simpa using hv⟩
  obtain ⟨h1, h2, h3, h4⟩ := h
  unfold area
  rw [foldl_minMax l hl _ start_valid]
  refine ⟨?_, ?_, ?_, ?_⟩
  · exact le_trans ((foldl_min_spec _ _).2 _ (List.mem_map_of_mem hm)) h1
  · exact lt_of_lt_of_le h2 ((foldl_max_spec _ _).2 _ (List.mem_map_of_mem hm))
  · exact le_trans ((foldl_min_spec _ _).2 _ (List.mem_map_of_mem hm)) h3
  · exact lt_of_lt_of_le h4 ((foldl_max_spec _ _).2 _ (List.mem_map_of_mem hm))

/-- The area does not depend on the order in which it is reduced. -/
theorem area_perm (l l' : List Box) (hl : Sane l) (h : l.Perm l') : area l = area l' := by
  have hl' : Sane l' := fun b hb => hl b (h.mem_iff.mpr hb)
  have hf := h.filter (· ≠ invalid)
  unfold area
  rw [foldl_minMax l hl _ start_valid, foldl_minMax l' hl' _ start_valid]
  have e1 := fun f : Box → Nat => (hf.map f).foldl_eq (f := min) (rcomm := ⟨fun a b c => by omega⟩) big
  have e2 := fun f : Box → Nat => (hf.map f).foldl_eq (f := max) (rcomm := ⟨fun a b c => by omega⟩) 0
  rw [e1, e1, e2, e2]

/-- Invisible spheres have no pixel. -/
theorem invalid_empty (x y : Nat) : ¬ invalid.has x y := by
  rintro ⟨h1, h2, -⟩
  simp only [invalid] at h1 h2
  omega

/-- Without visible spheres nothing is rendered. -/
theorem area_none (l : List Box) (h : ∀ b ∈ l, b = invalid) : area l = ⟨big, 0, big, 0⟩ := by
  unfold area
  rw [foldl_minMax l (fun b hb => Or.inl (h b hb)) _ start_valid]
  have : l.filter (· ≠ invalid) = [] := by
    rw [List.filter_eq_nil_iff]
    intro b hb
    simpa using h b hb
  rw [this]
  rfl

/-! ## Regions -/

/-- `iDivCeil`, `math.h:37-39`. -/
def ceilDiv (a b : Nat) : Nat := if a % b ≠ 0 then a / b + 1 else a / b

/-- `x_step` and `y_step`, `renderer.forward.device.h:183-188`; the blocks have 16 pixels. -/
def step (lo hi : Nat) : Nat := 16 * ceilDiv (hi - lo) (3 * 16)

/-- The loops over the regions, `renderer.forward.device.h:191-194`. -/
def starts (st hi lo : Nat) : List Nat :=
  if _h : lo < hi ∧ 0 < st then lo :: starts st hi (lo + st) else []
termination_by hi - lo
decreasing_by omega

theorem ceilDiv_spec (a b : Nat) (hb : 0 < b) : a ≤ ceilDiv a b * b ∧ ceilDiv a b * b < a + b := by
  unfold ceilDiv
  have h := Nat.div_add_mod a b
  have h2 := Nat.mod_lt a hb
  rw [Nat.mul_comm] at h
  split_ifs with h0
  · rw [Nat.add_mul]
    omega
  · omega

theorem mem_starts (st hi lo s : Nat) (hst : 0 < st) : s ∈ starts st hi lo ↔ s < hi ∧ ∃ k, s = lo + k * st := by
  rw [starts]
  split_ifs with h
  · rw [List.mem_cons, mem_starts st hi (lo + st) s hst]
    constructor
    · rintro (rfl | ⟨h1, k, rfl⟩)
      · exact ⟨h.1, 0, by simp⟩
      · exact ⟨h1, k + 1, by ring⟩
    · rintro ⟨h1, k, rfl⟩
      cases k with
      | zero => exact Or.inl (by simp)
      | succ k => exact Or.inr ⟨h1, k, by ring⟩
  · constructor
    · intro h; cases h
    · rintro ⟨h1, k, rfl⟩
      exact absurd ⟨by omega, hst⟩ h
termination_by hi - lo
decreasing_by omega

theorem starts_sorted (st hi lo : Nat) : (starts st hi lo).Pairwise (fun a b => a + st ≤ b) := by
  rw [starts]
  split_ifs with h
  · refine List.pairwise_cons.mpr ⟨?_, starts_sorted st hi (lo + st)⟩
    intro b hb
    obtain ⟨-, k, rfl⟩ := (mem_starts st hi (lo + st) b h.2).mp hb
    omega
  · exact List.Pairwise.nil
termination_by hi - lo
decreasing_by omega

theorem step_pos {lo hi : Nat} (h : lo < hi) : 0 < step lo hi := by
  have := (ceilDiv_spec (hi - lo) 48 (by omega)).1
  unfold step
  rcases Nat.eq_zero_or_pos (ceilDiv (hi - lo) 48) with h0 | h0
  · rw [h0] at this
    omega
  · show 0 < 16 * ceilDiv (hi - lo) 48
    omega

/-- In each direction there are one to three regions, whole blocks wide, one after the other from the first pixel with a sphere. -/
theorem regions_count {lo hi : Nat} (h : lo < hi) : 1 ≤ (starts (step lo hi) hi lo).length ∧ (starts (step lo hi) hi lo).length ≤ 3 ∧ 16 ∣ step lo hi := by
  have h3 : hi ≤ lo + step lo hi + step lo hi + step lo hi := by
    have := (ceilDiv_spec (hi - lo) 48 (by omega)).1
    unfold step
    show hi ≤ lo + 16 * ceilDiv (hi - lo) 48 + 16 * ceilDiv (hi - lo) 48 + 16 * ceilDiv (hi - lo) 48
    omega
  have hp := step_pos h
  refine ⟨?_, ?_, Dvd.intro _ rfl⟩
  · rw [starts, dif_pos ⟨h, hp⟩, List.length_cons]
    omega
  · rw [starts, dif_pos ⟨h, hp⟩, List.length_cons, starts]
    split_ifs with h1
    · rw [List.length_cons, starts]
      split_ifs with h2
      · rw [List.length_cons, starts, dif_neg (by omega)]
        simp
      · simp
    · simp

/-- A coordinate is in at most one region, and in one if it is in the area. -/
theorem region_unique {st hi lo x a b : Nat} (ha : a ∈ starts st hi lo) (hb : b ∈ starts st hi lo) (h1 : a ≤ x ∧ x < a + st) (h2 : b ≤ x ∧ x < b + st) : a = b := by
  have hst : 0 < st := by omega
  obtain ⟨-, k, rfl⟩ := (mem_starts st hi lo a hst).mp ha
  obtain ⟨-, m, rfl⟩ := (mem_starts st hi lo b hst).mp hb
  have key : ∀ k m : Nat, k < m → lo + k * st ≤ x ∧ x < lo + k * st + st → lo + m * st ≤ x → False := by
    intro k m h h1 h2
    have : (k + 1) * st ≤ m * st := Nat.mul_le_mul_right _ h
    rw [Nat.add_mul] at this
    omega
  rcases Nat.lt_trichotomy k m with h | h | h
  · exact (key k m h h1 h2.1).elim
  · rw [h]
  · exact (key m k h h2 h1.1).elim

theorem region_exists {lo hi x : Nat} (h1 : lo ≤ x) (h2 : x < hi) : ∃ s ∈ starts (step lo hi) hi lo, s ≤ x ∧ x < s + step lo hi := by
  have hp := step_pos (lt_of_le_of_lt h1 h2)
  set st := step lo hi
  have hd := Nat.div_add_mod (x - lo) st
  have hm := Nat.mod_lt (x - lo) hp
  refine ⟨lo + (x - lo) / st * st, (mem_starts st hi lo _ hp).mpr ⟨?_, _, rfl⟩, ?_, ?_⟩
  · rw [Nat.mul_comm] at hd
    omega
  · rw [Nat.mul_comm] at hd
    omega
  · rw [Nat.mul_comm] at hd
    omega

/-! ## Sorting and selection -/

section select
variable {D O : Type}

/-- `SORT_ASCENDING`, `host/commands.h:194-213`: the permutation `perm`, found from the depths only, applied to an array. -/
def applyPerm {A : Type} (perm : List Nat) (l : List A) : List A := perm.filterMap (fun i => l[i]?)

/-- `create_selector`, `renderer.create_selector.device.h:29-34`. -/
def selector (b : Box) (minX maxX minY maxY : Nat) : Bool :=
  decide (b.minX ≤ maxX) && decide (minX < b.maxX) && decide (b.minY ≤ maxY) && decide (minY < b.maxY)

/-- `SELECT_FLAGS_WS`, `host/commands.h:256-274`. -/
def select {A : Type} (flags : List Bool) (l : List A) : List A := (flags.zip l).filterMap (fun p => if p.1 then some p.2 else none)

/-- A sphere as it reaches `render`. -/
structure Sph (D : Type) where
  id : Int
  box : Box
  info : D

/-- The three arrays given to `render` for a region, `renderer.forward.device.h:195-236`. -/
def regionArrays (perm : List Nat) (ids : List Int) (ii : List Box) (di : List D) (x xs y ys : Nat) : List Int × List Box × List D :=
  let flags := (applyPerm perm ii).map (fun b => selector b x (x + xs) y (y + ys))
  (select flags (applyPerm perm ids), select flags (applyPerm perm ii), select flags (applyPerm perm di))

/-- The spheres in order of depth. -/
def sorted (perm : List Nat) (sp : List (Sph D)) : List (Sph D) := applyPerm perm sp

/-- The spheres of a region, as one list. -/
def regionSph (perm : List Nat) (sp : List (Sph D)) (x xs y ys : Nat) : List (Sph D) := (sorted perm sp).filter (fun s => selector s.box x (x + xs) y (y + ys))

theorem applyPerm_map {A B : Type} (perm : List Nat) (f : A → B) (l : List A) : applyPerm perm (l.map f) = (applyPerm perm l).map f := by
  unfold applyPerm
  rw [List.map_filterMap]
  congr 1
  funext i
  rw [List.getElem?_map]

theorem select_map {A B : Type} (p : A → Bool) (f : A → B) (l : List A) : select (l.map p) (l.map f) = (l.filter p).map f := by
  unfold select
  induction l with
  | nil => rfl
  | cons a l ih =>
    rw [List.map_cons, List.map_cons, List.zip_cons_cons, List.filterMap_cons]
    cases h : p a
    · rw [List.filter_cons_of_neg (by simp [h])]
      simpa using ih
    · rw [List.filter_cons_of_pos h, List.map_cons]
      simpa using ih

/-- The three arrays stay aligned: entry `i` of each belongs to sphere `i` of the region. -/
theorem arrays_aligned (perm : List Nat) (sp : List (Sph D)) (x xs y ys : Nat) :
    regionArrays perm (sp.map (·.id)) (sp.map (·.box)) (sp.map (·.info)) x xs y ys =
      ((regionSph perm sp x xs y ys).map (·.id), (regionSph perm sp x xs y ys).map (·.box), (regionSph perm sp x xs y ys).map (·.info)) := by
  unfold regionArrays regionSph sorted
  dsimp only
  simp only [applyPerm_map, List.map_map]
  have := fun {B : Type} (f : Sph D → B) => select_map (fun s : Sph D => selector s.box x (x + xs) y (y + ys)) f (applyPerm perm sp)
  rw [show ((fun b => selector b x (x + xs) y (y + ys)) ∘ fun s : Sph D => s.box) = (fun s : Sph D => selector s.box x (x + xs) y (y + ys)) from rfl, this, this, this]

/-- The spheres of a region are in the order of all and include every sphere with a pixel in it. -/
theorem region_spec (perm : List Nat) (sp : List (Sph D)) (x xs y ys : Nat) :
    (regionSph perm sp x xs y ys).Sublist (sorted perm sp) ∧
    ∀ s ∈ sorted perm sp, ∀ a b, x ≤ a → a < x + xs → y ≤ b → b < y + ys → s.box.has a b → s ∈ regionSph perm sp x xs y ys := by
  refine ⟨List.filter_sublist, ?_⟩
  rintro s hs a b h1 h2 h3 h4 ⟨g1, g2, g3, g4⟩
  refine List.mem_filter.mpr ⟨hs, ?_⟩
  simp only [selector, Bool.and_eq_true, decide_eq_true_eq]
  omega

/-- A permutation of all: every sphere is there once. -/
theorem sorted_perm (perm : List Nat) (sp : List (Sph D)) (h : perm.Perm (List.range sp.length)) : (sorted perm sp).Perm sp := by
  unfold sorted applyPerm
  refine (h.filterMap _).trans ?_
  have : (List.range sp.length).filterMap (fun i => sp[i]?) = sp := by
    clear h
    induction sp with
    | nil => rfl
    | cons a l ih =>
      rw [List.length_cons, List.range_succ_eq_map, List.filterMap_cons, List.getElem?_cons_zero, List.filterMap_map]
      simp only []
      congr 1
  rw [this]

/-! ## The film -/

/-- The regions of a pass. -/
def regions (a : Box) : List (Nat × Nat) :=
  if a.minY < a.maxY ∧ a.minX < a.maxX then (starts (step a.minY a.maxY) a.maxY a.minY).flatMap (fun y => (starts (step a.minX a.maxX) a.maxX a.minX).map (fun x => (x, y))) else []

/-- A pixel of the film after the loop over the regions and `fill_bg`, `renderer.forward.device.h:190-256`: each region that contains the pixel writes it, later ones over
earlier ones; what no region wrote is background. -/
def film (rend : List (Sph D) → Nat → Nat → O) (bg : O) (perm : List Nat) (sp : List (Sph D)) (x y : Nat) : O :=
  let a := area ((sorted perm sp).map (·.box))
  ((regions a).foldl (fun o r => if r.1 ≤ x ∧ x < r.1 + step a.minX a.maxX ∧ r.2 ≤ y ∧ y < r.2 + step a.minY a.maxY
    then some (rend (regionSph perm sp r.1 (step a.minX a.maxX) r.2 (step a.minY a.maxY)) x y) else o) none).getD bg

/-- How often a pixel is written. -/
def writes (a : Box) (x y : Nat) : List (Nat × Nat) :=
  (regions a).filter (fun r => decide (r.1 ≤ x ∧ x < r.1 + step a.minX a.maxX ∧ r.2 ≤ y ∧ y < r.2 + step a.minY a.maxY))

theorem mem_regions (a : Box) (r : Nat × Nat) : r ∈ regions a ↔ (a.minY < a.maxY ∧ a.minX < a.maxX) ∧ r.2 ∈ starts (step a.minY a.maxY) a.maxY a.minY ∧ r.1 ∈ starts (step a.minX a.maxX) a.maxX a.minX := by
  unfold regions
  split_ifs with h
  · rw [List.mem_flatMap]
    constructor
    · rintro ⟨y, hy, hr⟩
      obtain ⟨x, hx, rfl⟩ := List.mem_map.mp hr
      exact ⟨h, hy, hx⟩
    · rintro ⟨-, hy, hx⟩
      exact ⟨r.2, hy, List.mem_map.mpr ⟨r.1, hx, rfl⟩⟩
  · simp [h]

theorem starts_nodup (st hi lo : Nat) : (starts st hi lo).Nodup := by
  rcases Nat.eq_zero_or_pos st with h | h
  · rw [starts, dif_neg (by omega)]
    exact List.nodup_nil
  · exact (starts_sorted st hi lo).imp (fun h => by omega)

theorem regions_nodup (a : Box) : (regions a).Nodup := by
  unfold regions
  split_ifs with h
  · rw [List.nodup_flatMap]
    refine ⟨?_, ?_⟩
    · intro y _
      exact (starts_nodup _ _ _).map (fun a b h => by simpa using h)
    · refine (starts_nodup _ _ _).imp ?_
      intro y y' hne r hr hr'
      obtain ⟨x, -, rfl⟩ := List.mem_map.mp hr
      obtain ⟨x', -, he⟩ := List.mem_map.mp hr'
      simp only [Prod.mk.injEq] at he
      exact hne he.2.symm
  · exact List.nodup_nil

/-- No pixel is written by two regions; every pixel of the area is written by one. -/
theorem written_once (a : Box) (x y : Nat) : (writes a x y).length ≤ 1 ∧ (a.has x y → (writes a x y).length = 1) := by
  have h1 : (writes a x y).length ≤ 1 := by
    have hn : (writes a x y).Nodup := (regions_nodup a).filter _
    have huniq : ∀ r ∈ writes a x y, ∀ r' ∈ writes a x y, r = r' := by
      intro r hr r' hr'
      obtain ⟨m, e⟩ := List.mem_filter.mp hr
      obtain ⟨m', e'⟩ := List.mem_filter.mp hr'
      rw [decide_eq_true_eq] at e e'
      rw [mem_regions] at m m'
      exact Prod.ext (region_unique m.2.2 m'.2.2 ⟨e.1, e.2.1⟩ ⟨e'.1, e'.2.1⟩) (region_unique m.2.1 m'.2.1 ⟨e.2.2.1, e.2.2.2⟩ ⟨e'.2.2.1, e'.2.2.2⟩)
    match hw : writes a x y with
    | [] => simp
    | [_] => simp
    | r :: r' :: l =>
      exfalso
      rw [hw] at hn huniq
      have := huniq r (by simp) r' (by simp)
      rw [this] at hn
      simp at hn
  refine ⟨h1, ?_⟩
  rintro ⟨g1, g2, g3, g4⟩
  obtain ⟨sx, hx, ex⟩ := region_exists g1 g2
  obtain ⟨sy, hy, ey⟩ := region_exists g3 g4
  have hm : (sx, sy) ∈ writes a x y := List.mem_filter.mpr ⟨(mem_regions a _).mpr ⟨⟨by omega, by omega⟩, hy, hx⟩, by simpa using ⟨ex.1, ex.2, ey.1, ey.2⟩⟩
  have := List.length_pos_of_mem hm
  omega

theorem foldl_none {R A : Type} (p : R → Prop) [DecidablePred p] (f : R → A) (l : List R) (o : Option A) (h : ∀ r ∈ l, ¬ p r) :
    l.foldl (fun o r => if p r then some (f r) else o) o = o := by
  induction l generalizing o with
  | nil => rfl
  | cons a l ih =>
    rw [List.foldl_cons, if_neg (h a (List.mem_cons_self ..))]
    exact ih o (fun r hr => h r (List.mem_cons_of_mem _ hr))

theorem foldl_same {R A : Type} (p : R → Prop) [DecidablePred p] (f : R → A) (l : List R) (v : A) (h : ∀ r ∈ l, p r → f r = v) (hex : ∃ r ∈ l, p r) (o : Option A) :
    l.foldl (fun o r => if p r then some (f r) else o) o = some v := by
  induction l generalizing o with
  | nil =>
    obtain ⟨r, hr, -⟩ := hex
    cases hr
  | cons a l ih =>
    rw [List.foldl_cons]
    by_cases hl : ∃ r ∈ l, p r
    · exact ih (fun r hr => h r (List.mem_cons_of_mem _ hr)) hl _
    · push Not at hl
      rw [foldl_none p f l _ hl]
      obtain ⟨r, hr, hp⟩ := hex
      rcases List.mem_cons.mp hr with rfl | hr
      · rw [if_pos hp, h _ (List.mem_cons_self ..) hp]
      · exact absurd hp (hl r hr)

open Classical in
/-- Regions, selection and background do not show: if what is drawn at a pixel depends only on the spheres whose bounds contain it, in order of depth, every pixel of
the film is what drawing all spheres in order of depth gives, the background being what drawing none gives. -/
theorem film_spec (rend : List (Sph D) → Nat → Nat → O) (bg : O) (perm : List Nat) (sp : List (Sph D))
    (hl : Sane ((sorted perm sp).map (·.box)))
    (hloc : ∀ l x y, rend l x y = rend (l.filter (fun s => s.box.has x y)) x y) (hbg : ∀ x y, rend [] x y = bg) (x y : Nat) :
    film rend bg perm sp x y = rend (sorted perm sp) x y := by
  set a := area ((sorted perm sp).map (·.box)) with ha
  have hsel : ∀ r : Nat × Nat, (r.1 ≤ x ∧ x < r.1 + step a.minX a.maxX ∧ r.2 ≤ y ∧ y < r.2 + step a.minY a.maxY) →
      rend (regionSph perm sp r.1 (step a.minX a.maxX) r.2 (step a.minY a.maxY)) x y = rend (sorted perm sp) x y := by
    rintro r ⟨h1, h2, h3, h4⟩
    rw [hloc, hloc (sorted perm sp)]
    congr 1
    unfold regionSph
    rw [List.filter_filter]
    apply List.filter_congr
    intro s hs
    by_cases hh : s.box.has x y
    · have := (List.mem_filter.mp ((region_spec perm sp r.1 (step a.minX a.maxX) r.2 (step a.minY a.maxY)).2 s hs x y h1 h2 h3 h4 hh)).2
      simp [hh, this]
    · simp [hh]
  unfold film
  dsimp only
  rw [← ha]
  by_cases hex : ∃ r ∈ regions a, (r.1 ≤ x ∧ x < r.1 + step a.minX a.maxX ∧ r.2 ≤ y ∧ y < r.2 + step a.minY a.maxY)
  · have := foldl_same (fun r : Nat × Nat => r.1 ≤ x ∧ x < r.1 + step a.minX a.maxX ∧ r.2 ≤ y ∧ y < r.2 + step a.minY a.maxY)
      (fun r => rend (regionSph perm sp r.1 (step a.minX a.maxX) r.2 (step a.minY a.maxY)) x y) (regions a) _ (fun r _ hp => hsel r hp) hex none
    rw [this]
    rfl
  · push Not at hex
    have := foldl_none (fun r : Nat × Nat => r.1 ≤ x ∧ x < r.1 + step a.minX a.maxX ∧ r.2 ≤ y ∧ y < r.2 + step a.minY a.maxY)
      (fun r => rend (regionSph perm sp r.1 (step a.minX a.maxX) r.2 (step a.minY a.maxY)) x y) (regions a) none (fun r hr hp => by
        have := hex r hr hp.1 hp.2.1 hp.2.2.1
        omega)
    rw [this, Option.getD_none, hloc]
    have hnone : (sorted perm sp).filter (fun s => s.box.has x y) = [] := by
      rw [List.filter_eq_nil_iff]
      intro s hs
      rw [decide_eq_true_eq]
      intro hh
      have hval : s.box ≠ invalid := by
        intro h
        rw [h] at hh
        exact invalid_empty x y hh
      have hcov := area_covers _ hl s.box (List.mem_map_of_mem hs) hval x y hh
      rw [← ha] at hcov
      have hlen := (written_once a x y).2 hcov
      have : writes a x y = [] := by
        unfold writes
        rw [List.filter_eq_nil_iff]
        intro r hr
        rw [decide_eq_true_eq]
        intro hp
        have := hex r hr hp.1 hp.2.1 hp.2.2.1
        omega
      rw [this] at hlen
      cases hlen
    rw [hnone, hbg]

open Classical in
/-- The blending of `Verif.PulsarRender` is of this kind when every sphere is drawn: hits are within the bounds (`Verif.PulsarDraw`). -/
theorem blending_local (hit : Sph D → Nat → Nat → Option PulsarRender.Hit) (hb : ∀ s x y, (hit s x y).isSome → s.box.has x y) (b : ℝ) (bgc : Nat → ℝ) (l : List (Sph D)) (x y : Nat) :
    PulsarRender.finish (PulsarRender.Pix.init b bgc) (l.filterMap (fun s => hit s x y)) =
      PulsarRender.finish (PulsarRender.Pix.init b bgc) ((l.filter (fun s => s.box.has x y)).filterMap (fun s => hit s x y)) := by
  congr 1
  induction l with
  | nil => rfl
  | cons s l ih =>
    rw [List.filterMap_cons]
    by_cases hh : s.box.has x y
    · rw [List.filter_cons_of_pos (by simpa using hh), List.filterMap_cons, ih]
    · rw [List.filter_cons_of_neg (by simpa using hh)]
      have : hit s x y = none := by
        cases hs : hit s x y with
        | none => rfl
        | some v => exact absurd (hb s x y (by rw [hs]; rfl)) hh
      rw [this]
      exact ih

/-- What `fill_bg` writes is what `render` writes for a pixel without hits: weights, tracked spheres and colour. -/
theorem background (c : PulsarRender.Cfg) (he : c.eps ≤ 1) (n : Nat) (big : ℝ) (load : Nat) (ch : Nat) :
    (PulsarRender.render c load []).pix.m = c.b ∧ (PulsarRender.render c load []).pix.d = 1 ∧
    (PulsarRender.render c load []).pix.color c.eps ch = c.bg ch ∧
    (PulsarRender.trackAll n big (PulsarRender.render c load []).hits).info n big = List.replicate n (-1, -1) := by
  have e : PulsarRender.render c load [] = PulsarRender.St.init c := by
    simp [PulsarRender.render, PulsarRender.loop, PulsarRender.St.init]
  rw [e]
  refine ⟨rfl, rfl, ?_, ?_⟩
  · simp [PulsarRender.St.init, PulsarRender.Pix.init, PulsarRender.Pix.color, max_eq_left he]
  · simp only [PulsarRender.St.init, PulsarRender.trackAll, List.foldl_nil, PulsarRender.Tracker.init, PulsarRender.Tracker.info, if_true]
    rw [List.map_const', List.length_range]

end select

/-! ## The same pixels backward -/

/-- `film_border_left`, `camera.cpp:51-52`. -/
def border (ppo : Int) : Nat := (max 0 (2 * ppo)).toNat

/-- Coordinate and address of a film pixel in `render`, `renderer.render.device.h:61-62, 395-397`. -/
def forwardLoc (W n bx by' cx cy : Nat) : Nat := (cy - by') * W * (3 + 2 * n) + (cx - bx) * (3 + 2 * n)

/-- The ones in `calc_gradients`, `renderer.calc_gradients.device.h:71-77, 112-113`. -/
def apCoord (ppo : Int) (f : Nat) : Nat := f + 2 * (max 0 ppo).toNat
def backwardLoc (W n fx fy : Nat) : Nat := fy * W * (3 + 2 * n) + fx * (3 + 2 * n)

/-- The backward pass shoots the same ray through each film pixel and reads what the forward pass wrote for it. -/
theorem same_pixel (W n : Nat) (px py : Int) (fx fy : Nat) :
    apCoord px fx = border px + fx ∧ backwardLoc W n fx fy = forwardLoc W n (border px) (border py) (apCoord px fx) (apCoord py fy) := by
  have h : ∀ (p : Int) (f : Nat), apCoord p f = border p + f := by
    intro p f
    unfold apCoord border
    omega
  refine ⟨h px fx, ?_⟩
  unfold backwardLoc forwardLoc
  rw [h, h, Nat.add_sub_cancel_left, Nat.add_sub_cancel_left]

/-- The records of different pixels do not overlap and are inside the buffer. -/
theorem loc_disjoint (W H n fx fy gx gy : Nat) (h1 : fx < W) (h2 : gx < W) (hne : (fx, fy) ≠ (gx, gy)) (h3 : fy < H) :
    (backwardLoc W n fx fy + (3 + 2 * n) ≤ backwardLoc W n gx gy ∨ backwardLoc W n gx gy + (3 + 2 * n) ≤ backwardLoc W n fx fy) ∧
    backwardLoc W n fx fy + (3 + 2 * n) ≤ W * H * (3 + 2 * n) := by
  have e : ∀ a b : Nat, backwardLoc W n a b = (b * W + a) * (3 + 2 * n) := by
    intro a b
    unfold backwardLoc
    ring
  have key : ∀ a b : Nat, a < b → a * (3 + 2 * n) + (3 + 2 * n) ≤ b * (3 + 2 * n) := by
    intro a b h
    calc a * (3 + 2 * n) + (3 + 2 * n) = (a + 1) * (3 + 2 * n) := by ring
      _ ≤ b * (3 + 2 * n) := Nat.mul_le_mul_right _ h
  have hlt : ∀ a b c d : Nat, a < W → b < d → b * W + a < d * W + c := by
    intro a b c d ha hbd
    calc b * W + a < b * W + W := by omega
      _ = (b + 1) * W := by ring
      _ ≤ d * W := Nat.mul_le_mul_right _ hbd
      _ ≤ d * W + c := Nat.le_add_right _ _
  rw [e, e]
  constructor
  · rcases Nat.lt_trichotomy fy gy with h | h | h
    · exact Or.inl (key _ _ (hlt _ _ _ _ h1 h))
    · subst h
      have : fx ≠ gx := fun h => hne (by rw [h])
      rcases Nat.lt_or_gt_of_ne this with h | h
      · exact Or.inl (key _ _ (by omega))
      · exact Or.inr (key _ _ (by omega))
    · exact Or.inr (key _ _ (hlt _ _ _ _ h2 h))
  · refine key _ _ ?_
    rw [Nat.mul_comm W H]
    have := hlt fx fy 0 H h1 h3
    omega

/-! ## Accumulation -/

section acc
variable {K : Type} [Field K] [LinearOrder K] [IsStrictOrderedRing K]

/-- `ATOMICADD` of a sequence of contributions to an array that was set to zero. -/
def addAll (ws : List (Nat × K)) : Nat → K := ws.foldl (fun f w => Function.update f w.1 (f w.1 + w.2)) (fun _ => 0)

/-- The contributions of `calc_gradients` (lines 133-186): for each pixel the tracked spheres, `-1` for a free entry. -/
def contributions (pixels : List Nat) (n : Nat) (track : Nat → Nat → Int) (g : Nat → Nat → K) : List (Nat × K) :=
  pixels.flatMap (fun p => (List.range n).filterMap (fun k => if 0 ≤ track p k then some ((track p k).toNat, g p k) else none))

/-- All contributions to a sphere. -/
def mine (ws : List (Nat × K)) (s : Nat) : List K := ws.filterMap (fun w => if w.1 = s then some w.2 else none)

theorem foldl_add (ws : List (Nat × K)) (f : Nat → K) (s : Nat) : (ws.foldl (fun f w => Function.update f w.1 (f w.1 + w.2)) f) s = f s + (mine ws s).sum := by
  induction ws generalizing f with
  | nil => simp [mine]
  | cons w ws ih =>
    rw [List.foldl_cons, ih]
    unfold mine
    rw [List.filterMap_cons]
    by_cases h : w.1 = s
    · subst h
      simp [add_assoc]
    · simp [h, Function.update_of_ne (Ne.symm h)]

/-- Whatever the order of the pixels and threads, the gradient of a sphere is the sum of its contributions. -/
theorem addAll_spec (ws ws' : List (Nat × K)) (h : ws'.Perm ws) (s : Nat) : addAll ws' s = (mine ws s).sum := by
  unfold addAll
  rw [foldl_add, zero_add]
  exact (h.filterMap _).sum_eq

/-- The counter. -/
def counts (ws : List (Nat × K)) (s : Nat) : Nat := (mine ws s).length

/-- Only pixels that track the sphere contribute to it. -/
theorem mine_mem (pixels : List Nat) (n : Nat) (track : Nat → Nat → Int) (g : Nat → Nat → K) (s : Nat) (v : K) :
    v ∈ mine (contributions pixels n track g) s ↔ ∃ p ∈ pixels, ∃ k < n, track p k = s ∧ v = g p k := by
  unfold mine contributions
  simp only [List.mem_filterMap, List.mem_flatMap, List.mem_range]
  constructor
  · rintro ⟨w, ⟨p, hp, k, hk, hw⟩, hv⟩
    split_ifs at hw with h0
    split_ifs at hv with h1
    simp only [Option.some.injEq] at hw hv
    subst hw
    refine ⟨p, hp, k, hk, ?_, hv.symm⟩
    simp only at h1
    omega
  · rintro ⟨p, hp, k, hk, ht, rfl⟩
    refine ⟨(s, g p k), ⟨p, hp, k, hk, ?_⟩, by simp⟩
    rw [if_pos (by omega), ht]
    simp

/-- `norm_sphere_gradients` for the gradients of the spheres (lines 24-47). -/
def normSphere (total : K) (count : Nat) : K := total * (if 0 < count then 1 / (count : K) else 0)

/-- Gradients of spheres are means over the entries that track them; of spheres that are tracked nowhere they are zero. -/
theorem sphere_mean (ws : List (Nat × K)) (s : Nat) :
    (mine ws s = [] → normSphere (addAll ws s) (counts ws s) = 0) ∧ (mine ws s ≠ [] → normSphere (addAll ws s) (counts ws s) * (mine ws s).length = (mine ws s).sum) := by
  unfold normSphere counts
  rw [addAll_spec ws ws (List.Perm.refl _)]
  constructor
  · intro h
    rw [h]
    simp
  · intro h
    have hp := List.length_pos_iff.mpr h
    have hk : ((mine ws s).length : K) ≠ 0 := by exact_mod_cast hp.ne'
    rw [if_pos hp]
    field_simp

/-! ## The camera -/

/-- Factor of the contribution of a sphere to the camera (lines 49-60): `w` and `h` are the extents of its bounds. -/
def camFactor (count w h : Nat) : K := if 0 < count then 1 / (count : K) * (w : K) * (h : K) * (1 / 1000) else 0

/-- The counter after the normalization (lines 65-68). -/
def camCount (count w h : Nat) : Nat := if 0 < count ∧ 3 ≤ w ∧ 3 ≤ h then 1 else count

/-- A sphere for the camera: its summed contribution, its counter and the extents of its bounds. -/
structure CamPart (K : Type) where
  total : K
  count : Nat
  w : Nat
  h : Nat

/-- The gradient of the camera, `renderer.backward.device.h:144-166`, `renderer.norm_cam_gradients.device.h:26-28`; `none` is the NaN of `0 * (1 / 0)`. -/
def camGrad (ps : List (CamPart K)) : Option K :=
  if (ps.map (fun p => camCount p.count p.w p.h)).sum = 0 then none
  else some ((ps.map (fun p => p.total * camFactor p.count p.w p.h)).sum * (1 / (((ps.map (fun p => camCount p.count p.w p.h)).sum : Nat) : K)))

/-- `dif_cam`, `renderer.backward.device.h:144`. -/
def camOut (dif : Bool) (ps : List (CamPart K)) : Option K := if dif then camGrad ps else some 0

/-- Not a number exactly if no sphere is tracked at any pixel; zero if not asked for. -/
theorem cam_nan (ps : List (CamPart K)) : (camOut true ps = none ↔ ∀ p ∈ ps, p.count = 0) ∧ camOut false ps = some 0 := by
  refine ⟨?_, rfl⟩
  have e : camOut true ps = camGrad ps := rfl
  rw [e]
  unfold camGrad
  have key : (ps.map (fun p => camCount p.count p.w p.h)).sum = 0 ↔ ∀ p ∈ ps, p.count = 0 := by
    rw [List.sum_eq_zero_iff]
    simp only [List.mem_map, forall_exists_index, and_imp, forall_apply_eq_imp_iff₂]
    refine forall₂_congr (fun p _ => ?_)
    unfold camCount
    split_ifs with h
    · constructor
      · intro h; cases h
      · intro h'; omega
    · rfl
  split_ifs with h
  · simpa using key.mp h
  · simp only [false_iff]
    exact fun h' => h (key.mpr h')

/-- When every tracked sphere covers three by three pixels: the mean over the tracked spheres of mean gradient times area over a thousand. -/
theorem cam_large (ps : List (CamPart K)) (hl : ∀ p ∈ ps, 0 < p.count → 3 ≤ p.w ∧ 3 ≤ p.h) (h0 : ∃ p ∈ ps, 0 < p.count) :
    ∃ v, camGrad ps = some v ∧
      v * (((ps.filter (fun p => decide (0 < p.count))).length : Nat) : K) = ((ps.filter (fun p => decide (0 < p.count))).map (fun p => p.total / (p.count : K) * ((p.w : K) * (p.h : K)) / 1000)).sum := by
  have hc : (ps.map (fun p => camCount p.count p.w p.h)).sum = (ps.filter (fun p => decide (0 < p.count))).length := by
    clear h0
    induction ps with
    | nil => rfl
    | cons p ps ih =>
      rw [List.map_cons, List.sum_cons, ih (fun q hq => hl q (List.mem_cons_of_mem _ hq))]
      by_cases h : 0 < p.count
      · rw [List.filter_cons_of_pos (by simpa using h), camCount, if_pos ⟨h, hl p (List.mem_cons_self ..) h⟩, List.length_cons, Nat.add_comm]
      · rw [List.filter_cons_of_neg (by simpa using h), camCount, if_neg (by tauto)]
        omega
  have hs : (ps.map (fun p => p.total * camFactor p.count p.w p.h)).sum = ((ps.filter (fun p => decide (0 < p.count))).map (fun p => p.total / (p.count : K) * ((p.w : K) * (p.h : K)) / 1000)).sum := by
    clear h0 hc hl
    induction ps with
    | nil => rfl
    | cons p ps ih =>
      rw [List.map_cons, List.sum_cons, ih]
      by_cases h : 0 < p.count
      · rw [List.filter_cons_of_pos (by simpa using h), camFactor, if_pos h, List.map_cons, List.sum_cons]
        congr 1
        ring
      · rw [List.filter_cons_of_neg (by simpa using h), camFactor, if_neg h, mul_zero, zero_add]
  obtain ⟨p, hp, hpc⟩ := h0
  have hpos : 0 < (ps.filter (fun p => decide (0 < p.count))).length := List.length_pos_of_mem (List.mem_filter.mpr ⟨hp, by simpa using hpc⟩)
  unfold camGrad
  rw [hc, hs, if_neg (by omega)]
  have hk : (((ps.filter (fun p => decide (0 < p.count))).length : Nat) : K) ≠ 0 := by exact_mod_cast hpos.ne'
  refine ⟨_, rfl, ?_⟩
  rw [mul_assoc, one_div, inv_mul_cancel₀ hk, mul_one]

/-- Smaller spheres are not left out, as the comment in the code says: their gradient is part of the sum, and their number of pixels instead of one goes into the divisor. -/
theorem cam_small (total : K) (count w h : Nat) (hc : 0 < count) (hs : w < 3 ∨ h < 3) : camGrad [⟨total, count, w, h⟩] = some (total / (count : K) * ((w : K) * (h : K)) / 1000 / (count : K)) := by
  have h1 : camCount count w h = count := by
    rw [camCount, if_neg (by omega)]
  unfold camGrad
  simp only [List.map_cons, List.map_nil, List.sum_cons, List.sum_nil, add_zero, h1, camFactor]
  rw [if_neg (by omega), if_pos hc]
  congr 1
  ring

/-! ## One pixel for debugging -/

/-- The pixels for which `backward_dbg` runs `calc_gradients` (lines 58-64; on the host a loop over the limits, on the GPU one thread): `px`, `py` is the pixel asked for. -/
def dbgPixels (gpu : Bool) (W H px py : Nat) : List (Nat × Nat) :=
  let lx := if px ≠ 0 then 1 else W
  let ly := if px ≠ 0 then 1 else H
  let nx := if gpu then min lx 1 else lx
  let ny := if gpu then min ly 1 else ly
  (List.range ny).flatMap (fun y => (List.range nx).map (fun x => (x + px, y + py)))

/-- The camera gradient of `backward_dbg` (lines 137-143): the sum over one sphere. -/
def dbgCam (buf : List K) : K := (buf.take 1).sum

/-- On the GPU, and on the host for any column but the first, exactly the pixel asked for. -/
theorem dbg_pixel (gpu : Bool) (W H px py : Nat) (hW : 0 < W) (hH : 0 < H) (h : gpu = true ∨ px ≠ 0) : dbgPixels gpu W H px py = [(px, py)] := by
  unfold dbgPixels
  dsimp only
  by_cases hp : px ≠ 0
  · rw [if_pos hp, if_pos hp]
    cases gpu <;> simp
  · rcases h with rfl | h
    · rw [if_neg hp, if_neg hp]
      simp only [if_true, Nat.min_eq_right hW, Nat.min_eq_right hH]
      simp
    · exact absurd h hp

/-- On the host in the first column: every pixel of the film moved down by the row, so that for every row but the first addresses past the film are read. -/
theorem dbg_host (W H py : Nat) (hW : 0 < W) (hpy : py < H) (p : Nat × Nat) :
    (p ∈ dbgPixels false W H 0 py ↔ p.1 < W ∧ py ≤ p.2 ∧ p.2 < H + py) ∧ ((∃ q ∈ dbgPixels false W H 0 py, H ≤ q.2) ↔ 0 < py) := by
  have hm : ∀ p : Nat × Nat, p ∈ dbgPixels false W H 0 py ↔ p.1 < W ∧ py ≤ p.2 ∧ p.2 < H + py := by
    intro p
    unfold dbgPixels
    simp only [ne_eq, not_true_eq_false, if_false, Bool.false_eq_true, List.mem_flatMap, List.mem_range, List.mem_map]
    constructor
    · rintro ⟨y, hy, x, hx, rfl⟩
      simp only
      omega
    · rintro ⟨h1, h2, h3⟩
      exact ⟨p.2 - py, by omega, p.1, h1, Prod.ext (by simp) (by simp; omega)⟩
  refine ⟨hm p, ?_⟩
  constructor
  · rintro ⟨q, hq, h⟩
    have := (hm q).mp hq
    omega
  · intro h
    exact ⟨(0, H), (hm _).mpr ⟨hW, by omega, by omega⟩, le_refl _⟩

/-- The camera gradient for debugging is that of the first sphere; the others do not matter. -/
theorem dbg_cam (v : K) (l : List K) : dbgCam (v :: l) = v := by simp [dbgCam]

end acc

example : area [⟨3, 10, 2, 5⟩, invalid, ⟨1, 4, 3, 9⟩] = ⟨1, 10, 2, 9⟩ := by decide
example : step 5 105 = 48 ∧ step 0 3 = 16 := by decide
example : camGrad [⟨(6 : ℚ), 3, 2, 10⟩] = some (1 / 75) := by norm_num [camGrad, camCount, camFactor]
example : dbgPixels false 2 2 0 1 = [(0, 1), (1, 1), (0, 2), (1, 2)] ∧ dbgPixels true 2 2 0 1 = [(0, 1)] := by decide
example : regionArrays [1, 0] [0, 1] [⟨0, 4, 0, 4⟩, ⟨20, 30, 0, 4⟩] ["a", "b"] 16 16 0 16 = ([1], [⟨20, 30, 0, 4⟩], ["b"]) := by decide

end P3D.PulsarPass
