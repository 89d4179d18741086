/-
Rectangle packing for texture maps, `renderer/mesh/utils.py:70-320`.
-/
import Mathlib.Data.List.Sort
import Mathlib.Data.List.Basic
import Mathlib.Data.Prod.Lex
import Mathlib.Order.Lex
import Mathlib.Data.Int.Order.Basic
import Mathlib.Order.BooleanAlgebra.Basic
import Mathlib.Tactic.NormNum
import Verif.ChamferProps

set_option linter.unusedSectionVars false

namespace P3D.PackRect

/-! ### Model -/

/-- `_UnplacedRectangle`, lines 93-96. -/
structure Unplaced where
  size : Int × Int
  ind : Nat
  flipped : Bool
  deriving DecidableEq

/-- `PackedRectangle`, lines 79-83. -/
structure Placed where
  x : Int
  y : Int
  flipped : Bool
  isFirst : Bool
  deriving DecidableEq, Repr

/-- `occupied[start - 1][1]`; index `-1` is the last entry in Python. -/
def prevTop (occ : List (Int × Int)) (start : Nat) : Int :=
  ((if start = 0 then occ.getLast? else occ[start - 1]?).getD (0, 0)).2

/-- The loop of `_try_place_rectangle`, lines 169-207: `(w, h)` is the size of the rectangle, `tw` the total width.  On success
the position and the new list `occupied`. -/
def tryLoop (w h tw : Int) (occ : List (Int × Int)) : Nat → Option Nat → Int → Int → Int → List (Int × Int) →
    Option ((Int × Int) × List (Int × Int))
  | _, _, _, _, _, [] => none
  | idx, start, maxW, prevH, packed, interval :: rest =>
    if interval.1 ≤ tw - w then
      let packed := packed + (interval.2 - prevH)
      let maxW := max interval.1 maxW
      let s := start.getD idx
      if packed ≥ h then
        let y := prevTop occ s
        let new := (maxW + w, y + h)
        some ((maxW, y),
          if packed = h then occ.take s ++ (occ.set idx new).drop idx
          else if idx > s then occ.take s ++ (occ.set (idx - 1) new).drop (idx - 1)
          else occ.take idx ++ new :: occ.drop idx)
      else tryLoop w h tw occ (idx + 1) (some s) maxW interval.2 packed rest
    else tryLoop w h tw occ (idx + 1) none 0 interval.2 0 rest

/-- `_try_place_rectangle`, lines 99-207. -/
def tryPlace (r : Unplaced) (placed : List Placed) (occ : List (Int × Int)) : Option (List Placed × List (Int × Int)) :=
  (tryLoop r.size.1 r.size.2 ((occ.headD (0, 0)).1) occ 0 none 0 0 0 occ).map fun p =>
    (placed.set r.ind ⟨p.1.1, p.1.2, r.flipped, true⟩, p.2)

/-- The queue of lines 231-236: the longer side first. -/
def mkQueue (sizes : List (Int × Int)) : List Unplaced :=
  sizes.mapIdx fun i s => if s.1 < s.2 then ⟨(s.2, s.1), i, true⟩ else ⟨(s.1, s.2), i, false⟩

/-- Comparison of tuples. -/
def key (r : Unplaced) : Int ×ₗ Int ×ₗ Nat ×ₗ Bool := toLex (r.size.1, toLex (r.size.2, toLex (r.ind, r.flipped)))

/-- Lines 253-255. -/
def rotated (r : Unplaced) : Unplaced := ⟨(r.size.2, r.size.1), r.ind, !r.flipped⟩

/-- State of the loop of lines 249-263. -/
structure St where
  placed : List Placed
  occ : List (Int × Int)
  height : Int
  deriving DecidableEq

/-- Body of the loop of lines 249-263. -/
def step (s : St) (r : Unplaced) : St :=
  match tryPlace r s.placed s.occ with
  | some p => ⟨p.1, p.2, s.height⟩
  | none =>
    match tryPlace (rotated r) s.placed s.occ with
    | some p => ⟨p.1, p.2, s.height⟩
    | none => ⟨s.placed.set r.ind ⟨0, s.height, r.flipped, true⟩, s.occ ++ [(r.size.1, s.height + r.size.2)], s.height + r.size.2⟩

/-- `pack_rectangles`, lines 210-265; `none` is the ValueError of line 229. -/
def packRectangles (sizes : List (Int × Int)) : Option ((Int × Int) × List Placed) :=
  if sizes.length < 2 then none else
    match ((mkQueue sizes).insertionSort fun a b => key a ≤ key b).reverse with
    | biggest :: second :: rest =>
      let placed := (List.replicate sizes.length (⟨-1, -1, false, false⟩ : Placed)).set biggest.ind ⟨0, 0, biggest.flipped, true⟩
      let placed := placed.set second.ind ⟨0, biggest.size.2, second.flipped, true⟩
      let height := biggest.size.2 + second.size.2
      let s := rest.foldl step ⟨placed, [biggest.size, (second.size.1, height)], height⟩
      some ((biggest.size.1, s.height), s.placed)
    | _ => none

/-- `Rectangle`, lines 73-76. -/
structure Rect where
  xsize : Int
  ysize : Int
  identifier : Nat
  deriving DecidableEq

/-- The loop of lines 300-308: `input_map` as association list, `input_indices`, `unique_input_sizes`. -/
def uniqLoop : List (Nat × Nat) → List (Nat × Bool) → List (Int × Int) → List Rect → List (Nat × Bool) × List (Int × Int)
  | _, ids, us, [] => (ids, us)
  | m, ids, us, r :: rs =>
    match m.lookup r.identifier with
    | none => uniqLoop ((r.identifier, us.length) :: m) (ids ++ [(us.length, true)]) (us ++ [(r.xsize, r.ysize)]) rs
    | some u => uniqLoop m (ids ++ [(u, false)]) us rs

/-- `pack_unique_rectangles`, lines 268-320; `none` is an error. -/
def packUnique (rs : List Rect) : Option ((Int × Int) × List Placed) :=
  if rs.length < 2 then none else
    let p := uniqLoop [] [] [] rs
    if p.2.length = 1 then
      p.2.head?.map fun s => (s, ⟨0, 0, false, true⟩ :: List.replicate (rs.length - 1) ⟨0, 0, false, false⟩)
    else do
      let (total, locs) ← packRectangles p.2
      let full ← p.1.mapM fun i => (locs[i.1]?).map fun l => { l with isFirst := i.2 }
      some (total, full)

/-! ### Specification -/

/-- Size of rectangle `s` as placed. -/
def orient (flipped : Bool) (s : Int × Int) : Int × Int := if flipped then (s.2, s.1) else s

/-- A rectangle of size `s` placed at `p` lies inside the box of size `total`. -/
def Inside (total s : Int × Int) (p : Placed) : Prop :=
  0 ≤ p.x ∧ p.x + (orient p.flipped s).1 ≤ total.1 ∧ 0 ≤ p.y ∧ p.y + (orient p.flipped s).2 ≤ total.2

/-- Point `(a, b)` (the cell with this lower corner) is covered by the rectangle of size `s` placed at `p`. -/
def Covers (s : Int × Int) (p : Placed) (a b : Int) : Prop :=
  p.x ≤ a ∧ a < p.x + (orient p.flipped s).1 ∧ p.y ≤ b ∧ b < p.y + (orient p.flipped s).2

/-! ### The skyline -/

/-- Extent to the right at height `t`. -/
def sky : List (Int × Int) → Int → Int
  | [], _ => 0
  | (x, h) :: l, t => if t < h then x else sky l t

/-- Height of the last entry. -/
def top (l : List (Int × Int)) : Int := (l.getLast?.getD (0, 0)).2

/-- Increasing heights. -/
def Inc (l : List (Int × Int)) : Prop := l.Pairwise fun a b => a.2 < b.2

theorem sky_append_lt {A B : List (Int × Int)} {t : Int} (h : ∃ a ∈ A, t < a.2) : sky (A ++ B) t = sky A t := by
  induction A with
  | nil => simp at h
  | cons a A ih =>
    obtain ⟨x, k⟩ := a
    simp only [List.cons_append, sky]
    split
    · rfl
    · apply ih
      obtain ⟨a, ha, hl⟩ := h
      rcases List.mem_cons.mp ha with rfl | ha
      · exact absurd hl (by assumption)
      · exact ⟨a, ha, hl⟩

theorem sky_append_ge {A B : List (Int × Int)} {t : Int} (h : ∀ a ∈ A, a.2 ≤ t) : sky (A ++ B) t = sky B t := by
  induction A with
  | nil => rfl
  | cons a A ih =>
    obtain ⟨x, k⟩ := a
    have h1 := h (x, k) (by simp)
    simp only [List.cons_append, sky]
    rw [if_neg (by simp only at h1; omega), ih fun a ha => h a (by simp [ha])]

theorem top_append_singleton (A : List (Int × Int)) (a : Int × Int) : top (A ++ [a]) = a.2 := by simp [top]

theorem le_top {A : List (Int × Int)} (h : Inc A) {a : Int × Int} (ha : a ∈ A) : a.2 ≤ top A := by
  rcases List.eq_nil_or_concat A with rfl | ⟨l, b, rfl⟩
  · simp at ha
  · rw [List.concat_eq_append] at *
    rw [top_append_singleton]
    rcases List.mem_append.mp ha with h1 | h1
    · exact le_of_lt ((List.pairwise_append.mp h).2.2 a h1 b (by simp))
    · rw [List.mem_singleton.mp h1]

theorem top_mem {A : List (Int × Int)} (h : A ≠ []) : ∃ a ∈ A, a.2 = top A := by
  rcases List.eq_nil_or_concat A with rfl | ⟨l, b, rfl⟩
  · exact absurd rfl h
  · rw [List.concat_eq_append]
    exact ⟨b, by simp, (top_append_singleton l b).symm⟩

/-- What a successful placement guarantees. -/
structure Good (w h tw : Int) (occ : List (Int × Int)) (X Y : Int) (occ' : List (Int × Int)) : Prop where
  x_nonneg : 0 ≤ X
  x_le : X + w ≤ tw
  y_nonneg : 0 ≤ Y
  y_le : Y + h ≤ top occ
  free : ∀ t, Y ≤ t → t < Y + h → sky occ t ≤ X
  sky_new : ∀ t, 0 ≤ t → t < top occ → sky occ' t = if Y ≤ t ∧ t < Y + h then X + w else sky occ t
  inc : Inc occ'
  top_eq : top occ' = top occ
  head_eq : occ'.head? = occ.head?
  mem : ∀ a ∈ occ', a = (X + w, Y + h) ∨ a ∈ occ

/-- The rows `A`, then `B` and the entry `e` used by the rectangle, then `C`. -/
theorem good_of_split {w h tw X : Int} {A B C : List (Int × Int)} {e : Int × Int} (hA : A ≠ []) (hinc : Inc (A ++ B ++ e :: C))
    (hpos : ∀ a ∈ A ++ B ++ e :: C, 0 < a.2) (hh : 0 < h) (hX : 0 ≤ X) (hXw : X + w ≤ tw)
    (hB : ∀ b ∈ B, b.1 ≤ X) (he : e.1 ≤ X) (hlo : B ≠ [] → top B < top A + h) (hhi : top A + h ≤ e.2) :
    Good w h tw (A ++ B ++ e :: C) X (top A)
      (A ++ (X + w, top A + h) :: (if top A + h = e.2 then C else e :: C)) := by
  have hincA : Inc A := (List.pairwise_append.mp (List.pairwise_append.mp hinc).1).1
  have hincB : Inc B := (List.pairwise_append.mp (List.pairwise_append.mp hinc).1).2.1
  have hAB : ∀ a ∈ A, ∀ b ∈ B, a.2 < b.2 := (List.pairwise_append.mp (List.pairwise_append.mp hinc).1).2.2
  have hABC := (List.pairwise_append.mp hinc).2.2
  have hEC : Inc (e :: C) := (List.pairwise_append.mp hinc).2.1
  obtain ⟨a0, ha0, hta⟩ := top_mem hA
  have htA : 0 < top A := by rw [← hta]; exact hpos a0 (by simp [ha0])
  have htop : top (A ++ B ++ e :: C) = top (e :: C) := by
    simp [top, List.getLast?_append, List.getLast?_cons]
  have he_top : e.2 ≤ top (e :: C) := le_top hEC (by simp)
  have hCgt : ∀ c ∈ C, e.2 < c.2 := fun c hc => (List.pairwise_cons.mp hEC).1 c hc
  have htBlt : ∀ b ∈ B, b.2 < top A + h := fun b hb => lt_of_le_of_lt (le_top hincB hb) (hlo (List.ne_nil_of_mem hb))
  have hA' : ∀ a ∈ A, a.2 ≤ top A := fun a ha => le_top hincA ha
  have sky_old : ∀ t, top A ≤ t → sky (A ++ B ++ e :: C) t = sky (B ++ e :: C) t := by
    intro t ht
    rw [List.append_assoc]
    exact sky_append_ge fun a ha => (hA' a ha).trans ht
  refine ⟨hX, hXw, htA.le, by rw [htop]; omega, ?_, ?_, ?_, ?_, ?_, ?_⟩
  · intro t h1 h2
    rw [sky_old t h1]
    by_cases hb : ∃ b ∈ B, t < b.2
    · rw [sky_append_lt hb]
      clear hlo hABC hinc hpos htop sky_old htBlt
      induction B with
      | nil => simp at hb
      | cons b B ih =>
        obtain ⟨x, k⟩ := b
        simp only [sky]
        split
        · exact hB (x, k) (by simp)
        · apply ih (fun b hb => hB b (by simp [hb])) (List.pairwise_cons.mp hincB).2
            (fun a ha b hb => hAB a ha b (by simp [hb]))
          obtain ⟨b, hb, hl⟩ := hb
          rcases List.mem_cons.mp hb with rfl | hb
          · exact absurd hl (by assumption)
          · exact ⟨b, hb, hl⟩
    · push Not at hb
      rw [sky_append_ge hb]
      obtain ⟨x, k⟩ := e
      simp only [sky]
      rw [if_pos (by simp only at hhi; omega)]
      exact he
  · intro t h0 ht
    rw [htop] at ht
    by_cases hlt : t < top A
    · have hex : ∃ a ∈ A, t < a.2 := ⟨a0, ha0, by omega⟩
      rw [sky_append_lt hex, List.append_assoc, sky_append_lt hex, if_neg (by omega)]
    · push Not at hlt
      rw [sky_append_ge fun a ha => (hA' a ha).trans hlt]
      simp only [sky]
      by_cases h2 : t < top A + h
      · rw [if_pos h2, if_pos ⟨hlt, h2⟩]
      · rw [if_neg h2, sky_old t hlt]
        rw [sky_append_ge (A := B) fun b hb => by have := htBlt b hb; omega]
        rw [if_neg (c := top A ≤ t ∧ t < top A + h) (fun h => h2 h.2)]
        split
        · obtain ⟨x, k⟩ := e
          simp only [sky]
          rw [if_neg (by simp only at *; omega)]
        · rfl
  · refine List.pairwise_append.mpr ⟨hincA, ?_, ?_⟩
    · refine List.pairwise_cons.mpr ⟨?_, ?_⟩
      · intro c hc
        show top A + h < c.2
        split at hc
        · have := hCgt c hc; omega
        · rcases List.mem_cons.mp hc with rfl | hc
          · omega
          · have := hCgt c hc; omega
      · split
        · exact (List.pairwise_cons.mp hEC).2
        · exact hEC
    · intro a ha b hb
      have h1 := hA' a ha
      rcases List.mem_cons.mp hb with rfl | hb
      · show a.2 < top A + h; omega
      · split at hb
        · have := hCgt b hb; omega
        · rcases List.mem_cons.mp hb with rfl | hb
          · omega
          · have := hCgt b hb; omega
  · rw [htop]
    split
    · rename_i heq
      rcases List.eq_nil_or_concat C with rfl | ⟨l, b, rfl⟩
      · rw [top_append_singleton]; exact heq
      · simp [top, List.getLast?_append, List.getLast?_cons]
    · simp [top, List.getLast?_append, List.getLast?_cons]
  · obtain ⟨a, A', rfl⟩ := List.exists_cons_of_ne_nil hA
    simp
  · intro a ha
    rcases List.mem_append.mp ha with ha | ha
    · exact Or.inr (by simp [ha])
    · rcases List.mem_cons.mp ha with ha | ha
      · exact Or.inl ha
      · right
        split at ha
        · simp [ha]
        · rcases List.mem_cons.mp ha with ha | ha <;> simp [ha]

theorem tryLoop_spec {w h tw : Int} (hw : 0 < w) (hh : 0 < h) {occ : List (Int × Int)} (hinc : Inc occ) (hpos : ∀ a ∈ occ, 0 < a.2)
    (hhead : (occ.headD (0, 0)).1 = tw) (hx : ∀ a ∈ occ, 0 ≤ a.1) :
    ∀ (rest A B : List (Int × Int)) (start : Option Nat) (maxW prevH packed : Int),
    occ = A ++ B ++ rest → prevH = top (A ++ B) →
    (match start with
      | none => B = [] ∧ maxW = 0 ∧ packed = 0
      | some s => A ≠ [] ∧ s = A.length ∧ B ≠ [] ∧ packed = top B - top A ∧ packed < h ∧ 0 ≤ maxW ∧ maxW ≤ tw - w
          ∧ ∀ b ∈ B, b.1 ≤ maxW) →
    ∀ X Y occ', tryLoop w h tw occ (A.length + B.length) start maxW prevH packed rest = some ((X, Y), occ') →
      Good w h tw occ X Y occ' := by
  intro rest
  induction rest with
  | nil => intro A B start maxW prevH packed _ _ _ X Y occ' hr; simp [tryLoop] at hr
  | cons e C ih =>
    intro A B start maxW prevH packed hocc hprev hst X Y occ' hr
    rw [tryLoop] at hr
    by_cases hfit : e.1 ≤ tw - w
    · rw [if_pos hfit] at hr
      simp only [] at hr
      -- the start of the run, with a non-empty list before it
      obtain ⟨A', B', hocc', hlen, hA', hs, hmax, hpk, hB', hm0, hpl⟩ : ∃ A' B' : List (Int × Int), occ = A' ++ B' ++ e :: C ∧
          A'.length + B'.length = A.length + B.length ∧ A' ≠ [] ∧ start.getD (A.length + B.length) = A'.length ∧
          max e.1 maxW ≤ tw - w ∧ packed + (e.2 - prevH) = e.2 - top A' ∧ (∀ b ∈ B', b.1 ≤ max e.1 maxW) ∧ 0 ≤ max e.1 maxW
          ∧ (B' ≠ [] → top B' < top A' + h) := by
        cases start with
        | none =>
          obtain ⟨rfl, rfl, rfl⟩ := hst
          refine ⟨A, [], hocc, rfl, ?_, rfl, ?_, ?_, by simp, ?_, by simp⟩
          · rintro rfl
            rw [hocc] at hhead
            simp only [List.nil_append, List.headD_cons] at hhead
            omega
          · have := hx e (by rw [hocc]; simp)
            omega
          · rw [hprev, List.append_nil]; omega
          · exact le_max_right _ _
        | some s =>
          obtain ⟨h1, rfl, h3, h4, h5, h6, h7, h8⟩ := hst
          refine ⟨A, B, hocc, rfl, h1, rfl, by omega, ?_, fun b hb => (h8 b hb).trans (le_max_right _ _), by omega, fun _ => by omega⟩
          have : top (A ++ B) = top B := by
            obtain ⟨l, b, rfl⟩ := (List.eq_nil_or_concat B).resolve_left h3
            simp [top, List.getLast?_append]
          rw [hprev, this]; omega
      rw [hs, hpk, ← hlen] at hr
      have hyt : prevTop occ A'.length = top A' := by
        unfold prevTop
        rw [if_neg (by simpa using hA'), hocc']
        obtain ⟨l, b, rfl⟩ := (List.eq_nil_or_concat A').resolve_left hA'
        simp [top]
      split at hr
      · rename_i hge
        rw [hyt] at hr
        have hr' := Option.some.inj hr
        obtain ⟨⟨rfl, rfl⟩, rfl⟩ : (max e.1 maxW = X ∧ top A' = Y) ∧ _ = occ' := by
          simpa only [Prod.mk.injEq] using hr'
        have hg := good_of_split (w := w) (h := h) (tw := tw) (X := max e.1 maxW) hA' (hocc' ▸ hinc) (hocc' ▸ hpos) hh hm0 (by omega) hB'
          (le_max_left _ _) hpl (by omega)
        rw [← hocc'] at hg
        convert hg using 1
        by_cases heq : top A' + h = e.2
        · rw [if_pos (by omega), if_pos heq, hocc']
          simp
        · rw [if_neg (by omega), if_neg heq]
          rcases List.eq_nil_or_concat B' with rfl | ⟨l, b, rfl⟩
          · rw [if_neg (by simp), hocc']
            simp
          · rw [if_pos (by simp), hocc']
            have e1 : A'.length + (l.concat b).length - 1 = (A' ++ l).length := by simp
            rw [e1]
            have e2 : A' ++ l.concat b ++ e :: C = (A' ++ l) ++ b :: e :: C := by simp
            rw [e2]
            simp
      · rename_i hlt
        have hl : A'.length + B'.length + 1 = A'.length + (B' ++ [e]).length := by simp; omega
        rw [hl] at hr
        refine ih A' (B' ++ [e]) (some A'.length) (max e.1 maxW) e.2 (e.2 - top A') (by rw [hocc']; simp) (by
          rw [← List.append_assoc, top_append_singleton]) ⟨hA', rfl, by simp, by rw [top_append_singleton], by omega, hm0, hmax, ?_⟩ X Y occ' hr
        intro b hb
        rcases List.mem_append.mp hb with hb | hb
        · exact hB' b hb
        · rw [List.mem_singleton.mp hb]; exact le_max_left _ _
    · rw [if_neg hfit] at hr
      have hl : A.length + B.length + 1 = (A ++ B ++ [e]).length + ([] : List (Int × Int)).length := by simp; omega
      rw [hl] at hr
      exact ih (A ++ B ++ [e]) [] none 0 e.2 0 (by rw [hocc]; simp) (by rw [List.append_nil, top_append_singleton]) ⟨rfl, rfl, rfl⟩ X Y occ' hr

/-! ### The invariant of `pack_rectangles` -/

/-- The shape of `occupied`. -/
structure OccOk (tw H : Int) (occ : List (Int × Int)) : Prop where
  ne : occ ≠ []
  head : (occ.headD (0, 0)).1 = tw
  inc : Inc occ
  pos : ∀ a ∈ occ, 0 ≤ a.1 ∧ 0 < a.2
  top_eq : top occ = H

/-- A placed rectangle: inside the box, left of the skyline. -/
structure RectOk (tw H : Int) (occ : List (Int × Int)) (sz : Int × Int) (p : Placed) : Prop where
  inside : Inside (tw, H) sz p
  left : ∀ t, p.y ≤ t → t < p.y + (orient p.flipped sz).2 → p.x + (orient p.flipped sz).1 ≤ sky occ t

/-- Invariant: the rectangles with index in `D` are placed. -/
structure Inv (sizes : List (Int × Int)) (tw : Int) (s : St) (D : Nat → Prop) : Prop where
  occ : OccOk tw s.height s.occ
  len : s.placed.length = sizes.length
  ok : ∀ i, D i → ∃ sz p, sizes[i]? = some sz ∧ s.placed[i]? = some p ∧ p.isFirst = true ∧ RectOk tw s.height s.occ sz p
  dis : ∀ i j, D i → D j → i ≠ j → ∀ sz p sz' p', sizes[i]? = some sz → s.placed[i]? = some p → sizes[j]? = some sz' →
    s.placed[j]? = some p' → ∀ a b, ¬ (Covers sz p a b ∧ Covers sz' p' a b)

/-- The queue entry describes rectangle `r.ind`. -/
def Cons (sizes : List (Int × Int)) (r : Unplaced) : Prop :=
  ∃ sz, sizes[r.ind]? = some sz ∧ orient r.flipped sz = r.size

theorem orient_not (f : Bool) (s : Int × Int) : orient (!f) s = ((orient f s).2, (orient f s).1) := by
  cases f <;> simp [orient]

theorem cons_rotated {sizes : List (Int × Int)} {r : Unplaced} (h : Cons sizes r) : Cons sizes (rotated r) := by
  obtain ⟨sz, h1, h2⟩ := h
  exact ⟨sz, h1, by simp [rotated, orient_not, h2]⟩

theorem place_inv {sizes : List (Int × Int)} {tw : Int} {s : St} {D : Nat → Prop} (hI : Inv sizes tw s D) {r : Unplaced}
    (hr : Cons sizes r) (hD : ¬ D r.ind) {X Y H' : Int} {occ' : List (Int × Int)} (ho : OccOk tw H' occ') (hH : s.height ≤ H')
    (hX : 0 ≤ X) (hXw : X + r.size.1 ≤ tw) (hY : 0 ≤ Y) (hYh : Y + r.size.2 ≤ H')
    (hfree : ∀ t, Y ≤ t → t < Y + r.size.2 → t < s.height → sky s.occ t ≤ X)
    (hmono : ∀ t, 0 ≤ t → t < s.height → sky s.occ t ≤ sky occ' t)
    (hnew : ∀ t, Y ≤ t → t < Y + r.size.2 → X + r.size.1 ≤ sky occ' t) :
    Inv sizes tw ⟨s.placed.set r.ind ⟨X, Y, r.flipped, true⟩, occ', H'⟩ (fun i => i = r.ind ∨ D i) := by
  obtain ⟨sz, hsz, hor⟩ := hr
  have hlt : r.ind < s.placed.length := by
    rw [hI.len]; exact (List.getElem?_eq_some_iff.mp hsz).1
  have hself : (s.placed.set r.ind ⟨X, Y, r.flipped, true⟩)[r.ind]? = some ⟨X, Y, r.flipped, true⟩ := by
    rw [List.getElem?_set_self hlt]
  have hother : ∀ j, D j → (s.placed.set r.ind ⟨X, Y, r.flipped, true⟩)[j]? = s.placed[j]? := fun j hj =>
    List.getElem?_set_ne (by rintro rfl; exact hD hj)
  have key : ∀ j, D j → ∀ sz' p', sizes[j]? = some sz' → s.placed[j]? = some p' → ∀ a b,
      Covers sz ⟨X, Y, r.flipped, true⟩ a b → Covers sz' p' a b → False := by
    intro j hj sz' p' h1 h2 a b hc hc'
    obtain ⟨sz'', p'', g1, g2, -, g4⟩ := hI.ok j hj
    obtain rfl := Option.some.inj (g1.symm.trans h1)
    obtain rfl := Option.some.inj (g2.symm.trans h2)
    obtain ⟨c1, c2, c3, c4⟩ := hc
    obtain ⟨d1, d2, d3, d4⟩ := hc'
    simp only [hor] at c1 c2 c3 c4
    have i1 := g4.left b d3 d4
    have i2 := g4.inside
    simp only [Inside] at i2
    have i3 := hfree b c3 c4 (by omega)
    omega
  refine ⟨ho, by simpa using hI.len, ?_, ?_⟩
  · rintro i (rfl | hi)
    · refine ⟨sz, _, hsz, hself, rfl, ⟨⟨hX, ?_, hY, ?_⟩, ?_⟩⟩ <;> simp only [hor]
      · exact hXw
      · exact hYh
      · exact hnew
    · obtain ⟨sz', p', g1, g2, g3, g4⟩ := hI.ok i hi
      refine ⟨sz', p', g1, by rw [hother i hi, g2], g3, ⟨?_, ?_⟩⟩
      · have := g4.inside
        simp only [Inside] at this ⊢
        omega
      · intro t h1 h2
        have h3 := g4.inside
        simp only [Inside] at h3
        exact (g4.left t h1 h2).trans (hmono t (by omega) (by omega))
  · rintro i j (rfl | hi) (rfl | hj) hij sz1 p1 sz2 p2 e1 e2 e3 e4 a b ⟨c1, c2⟩
    · exact hij rfl
    · rw [hself] at e2
      obtain rfl := Option.some.inj e2
      obtain rfl := Option.some.inj (e1.symm.trans hsz)
      rw [hother j hj] at e4
      exact key j hj _ _ e3 e4 a b c1 c2
    · rw [hself] at e4
      obtain rfl := Option.some.inj e4
      obtain rfl := Option.some.inj (e3.symm.trans hsz)
      rw [hother i hi] at e2
      exact key i hi _ _ e1 e2 a b c2 c1
    · rw [hother i hi] at e2
      rw [hother j hj] at e4
      exact hI.dis i j hi hj hij _ _ _ _ e1 e2 e3 e4 a b ⟨c1, c2⟩

theorem tryPlace_inv {sizes : List (Int × Int)} {tw : Int} {s : St} {D : Nat → Prop} (hI : Inv sizes tw s D) {r : Unplaced}
    (hr : Cons sizes r) (hD : ¬ D r.ind) (hw : 0 < r.size.1) (hh : 0 < r.size.2) {p : List Placed × List (Int × Int)}
    (h : tryPlace r s.placed s.occ = some p) : Inv sizes tw ⟨p.1, p.2, s.height⟩ (fun i => i = r.ind ∨ D i) := by
  unfold tryPlace at h
  rw [hI.occ.head] at h
  obtain ⟨⟨⟨X, Y⟩, occ'⟩, h1, rfl⟩ := Option.map_eq_some_iff.mp h
  have g := tryLoop_spec hw hh hI.occ.inc (fun a ha => (hI.occ.pos a ha).2) hI.occ.head (fun a ha => (hI.occ.pos a ha).1) s.occ [] []
    none 0 0 0 rfl rfl ⟨rfl, rfl, rfl⟩ X Y occ' h1
  have hY := g.y_le
  rw [hI.occ.top_eq] at hY
  have sk := g.sky_new
  rw [hI.occ.top_eq] at sk
  refine place_inv hI hr hD ⟨?_, ?_, g.inc, ?_, by rw [g.top_eq, hI.occ.top_eq]⟩ le_rfl g.x_nonneg g.x_le g.y_nonneg hY
    (fun t a b _ => g.free t a b) ?_ ?_
  · intro h0
    have := g.head_eq
    change occ' = [] at h0
    rw [h0] at this
    exact hI.occ.ne (by simpa using this.symm)
  · have := hI.occ.head
    rw [List.headD_eq_head?_getD] at this ⊢
    rw [g.head_eq, this]
  · intro a ha
    rcases g.mem a ha with rfl | ha
    · have := g.x_nonneg; have := g.y_nonneg
      simp only; omega
    · exact hI.occ.pos a ha
  · intro t h0 h1
    rw [sk t h0 h1]
    split
    · rename_i hc
      have := g.free t hc.1 hc.2
      omega
    · exact le_rfl
  · intro t h0 h1
    change Y ≤ t at h0
    change t < Y + _ at h1
    have := g.y_nonneg
    rw [sk t (by omega) (by omega), if_pos ⟨h0, h1⟩]

theorem append_inv {sizes : List (Int × Int)} {tw : Int} {s : St} {D : Nat → Prop} (hI : Inv sizes tw s D) {r : Unplaced}
    (hr : Cons sizes r) (hD : ¬ D r.ind) (hw : 0 < r.size.1) (hh : 0 < r.size.2) (hle : r.size.1 ≤ tw) :
    Inv sizes tw ⟨s.placed.set r.ind ⟨0, s.height, r.flipped, true⟩, s.occ ++ [(r.size.1, s.height + r.size.2)], s.height + r.size.2⟩
      (fun i => i = r.ind ∨ D i) := by
  obtain ⟨a0, ha0, hta⟩ := top_mem hI.occ.ne
  rw [hI.occ.top_eq] at hta
  have hH : 0 < s.height := by rw [← hta]; exact (hI.occ.pos a0 ha0).2
  have hle' : ∀ a ∈ s.occ, a.2 ≤ s.height := fun a ha => by
    have := le_top hI.occ.inc ha
    rwa [hI.occ.top_eq] at this
  refine place_inv hI hr hD ⟨by simp, ?_, ?_, ?_, top_append_singleton _ _⟩ (by omega) le_rfl (by omega) hH.le le_rfl
    (fun t h1 _ h3 => by omega) ?_ ?_
  · obtain ⟨a, A', h⟩ := List.exists_cons_of_ne_nil hI.occ.ne
    have := hI.occ.head
    rw [h] at this ⊢
    simpa using this
  · refine List.pairwise_append.mpr ⟨hI.occ.inc, by simp, ?_⟩
    intro a ha b hb
    rw [List.mem_singleton.mp hb]
    have := hle' a ha
    show a.2 < s.height + r.size.2
    omega
  · intro a ha
    rcases List.mem_append.mp ha with ha | ha
    · exact hI.occ.pos a ha
    · rw [List.mem_singleton.mp ha]
      simp only; omega
  · intro t h0 h1
    rw [sky_append_lt ⟨a0, ha0, by omega⟩]
  · intro t h0 h1
    rw [sky_append_ge fun a ha => (hle' a ha).trans h0]
    simp only [sky]
    rw [if_pos h1]
    omega

theorem step_inv {sizes : List (Int × Int)} {tw : Int} {s : St} {D : Nat → Prop} (hI : Inv sizes tw s D) {r : Unplaced}
    (hr : Cons sizes r) (hD : ¬ D r.ind) (hw : 0 < r.size.1) (hh : 0 < r.size.2) (hle : r.size.1 ≤ tw) :
    Inv sizes tw (step s r) (fun i => i = r.ind ∨ D i) := by
  unfold step
  split
  · exact tryPlace_inv hI hr hD hw hh (by assumption)
  · split
    · rename_i h
      exact tryPlace_inv (r := rotated r) hI (cons_rotated hr) hD hh hw h
    · exact append_inv hI hr hD hw hh hle

theorem foldl_inv {sizes : List (Int × Int)} {tw : Int} : ∀ (rest : List Unplaced) {s : St} {D : Nat → Prop}, Inv sizes tw s D →
    (∀ r ∈ rest, Cons sizes r ∧ ¬ D r.ind ∧ 0 < r.size.1 ∧ 0 < r.size.2 ∧ r.size.1 ≤ tw) → (rest.map Unplaced.ind).Nodup →
    Inv sizes tw (rest.foldl step s) (fun i => i ∈ rest.map Unplaced.ind ∨ D i) := by
  intro rest
  induction rest with
  | nil => intro s D hI _ _; simpa using hI
  | cons r rest ih =>
    intro s D hI h hn
    obtain ⟨h1, h2, h3, h4, h5⟩ := h r (by simp)
    rw [List.map_cons, List.nodup_cons] at hn
    have := ih (step_inv hI h1 h2 h3 h4 h5) (fun q hq => by
      obtain ⟨g1, g2, g3⟩ := h q (by simp [hq])
      refine ⟨g1, ?_, g3⟩
      rintro (he | he)
      · exact hn.1 (he ▸ List.mem_map_of_mem hq)
      · exact g2 he) hn.2
    rw [List.foldl_cons]
    convert this using 1
    funext i
    simp only [List.map_cons, List.mem_cons, eq_iff_iff]
    tauto

theorem mkQueue_ind (sizes : List (Int × Int)) : (mkQueue sizes).map Unplaced.ind = List.range sizes.length := by
  apply List.ext_getElem
  · simp [mkQueue]
  · intro i h1 h2
    simp only [mkQueue, List.getElem_map, List.getElem_mapIdx, List.getElem_range]
    split <;> rfl

theorem mkQueue_mem {sizes : List (Int × Int)} (hpos : ∀ s ∈ sizes, 0 < s.1 ∧ 0 < s.2) {r : Unplaced} (hr : r ∈ mkQueue sizes) :
    Cons sizes r ∧ 0 < r.size.1 ∧ 0 < r.size.2 := by
  rw [mkQueue, List.mem_mapIdx] at hr
  obtain ⟨i, hi, rfl⟩ := hr
  have := hpos _ (List.getElem_mem hi)
  split
  · exact ⟨⟨_, List.getElem?_eq_getElem hi, by simp [orient]⟩, this.2, this.1⟩
  · exact ⟨⟨_, List.getElem?_eq_getElem hi, by simp [orient]⟩, this.1, this.2⟩

theorem key_le {a b : Unplaced} (h : key a ≤ key b) : a.size.1 ≤ b.size.1 := by
  rw [key, key, Prod.Lex.toLex_le_toLex] at h
  rcases h with h | h
  · exact le_of_lt h
  · exact le_of_eq h.1

theorem sorted_queue (q : List Unplaced) : (q.insertionSort fun a b => key a ≤ key b).reverse.Pairwise fun a b => b.size.1 ≤ a.size.1 := by
  rw [List.pairwise_reverse]
  have : Std.Total (fun a b : Unplaced => key a ≤ key b) := ⟨fun a b => le_total _ _⟩
  have : IsTrans Unplaced (fun a b => key a ≤ key b) := ⟨fun a b c => le_trans⟩
  exact (List.pairwise_insertionSort (fun a b : Unplaced => key a ≤ key b) q).imp fun h => key_le h

/-- **`pack_rectangles`**: for at least two rectangles of positive size, whatever the sizes, every rectangle is placed (possibly
flipped) inside the returned box and no two placed rectangles share a cell. -/
theorem pack_spec {sizes : List (Int × Int)} (h2 : 2 ≤ sizes.length) (hpos : ∀ s ∈ sizes, 0 < s.1 ∧ 0 < s.2) :
    ∃ total locs, packRectangles sizes = some (total, locs) ∧ locs.length = sizes.length ∧
      (∀ (i : Nat) (sz : Int × Int) (p : Placed), sizes[i]? = some sz → locs[i]? = some p → p.isFirst = true ∧ Inside total sz p) ∧
      (∀ (i j : Nat) (sz sz' : Int × Int) (p p' : Placed), i ≠ j → sizes[i]? = some sz → locs[i]? = some p → sizes[j]? = some sz' →
        locs[j]? = some p' → ∀ a b, ¬ (Covers sz p a b ∧ Covers sz' p' a b)) := by
  have hsort := sorted_queue (mkQueue sizes)
  have hperm : ((mkQueue sizes).insertionSort fun a b => key a ≤ key b).reverse.Perm (mkQueue sizes) :=
    (List.reverse_perm _).trans (List.perm_insertionSort _ _)
  rw [packRectangles, if_neg (by omega)]
  generalize ((mkQueue sizes).insertionSort fun a b => key a ≤ key b).reverse = q at hsort hperm
  have hlen : q.length = sizes.length := by
    rw [hperm.length_eq]; simp [mkQueue]
  have hmem : ∀ r ∈ q, Cons sizes r ∧ 0 < r.size.1 ∧ 0 < r.size.2 := fun r hr => mkQueue_mem hpos (hperm.mem_iff.mp hr)
  have hind : (q.map Unplaced.ind).Perm (List.range sizes.length) := mkQueue_ind sizes ▸ hperm.map _
  have hnd : (q.map Unplaced.ind).Nodup := hind.nodup_iff.mpr List.nodup_range
  match q, hlen, hsort, hmem, hind, hnd with
  | [], hl, _, _, _, _ => simp at hl; omega
  | [_], hl, _, _, _, _ => simp at hl; omega
  | b :: c :: rest, hl, hsort, hmem, hind, hnd =>
    simp only []
    obtain ⟨⟨szb, hb1, hb2⟩, hb3, hb4⟩ := hmem b (by simp)
    obtain ⟨hc1, hc2, hc3⟩ := hmem c (by simp)
    simp only [List.map_cons, List.nodup_cons, List.mem_cons, not_or] at hnd
    have hblt : b.ind < sizes.length := (List.getElem?_eq_some_iff.mp hb1).1
    have I0 : Inv sizes b.size.1 ⟨(List.replicate sizes.length (⟨-1, -1, false, false⟩ : Placed)).set b.ind ⟨0, 0, b.flipped, true⟩,
        [b.size], b.size.2⟩ (fun i => i = b.ind) := by
      have hself : ((List.replicate sizes.length (⟨-1, -1, false, false⟩ : Placed)).set b.ind ⟨0, 0, b.flipped, true⟩)[b.ind]?
          = some ⟨0, 0, b.flipped, true⟩ := by
        rw [List.getElem?_set_self (by simpa using hblt)]
      refine ⟨⟨by simp, rfl, by simp [Inc], by simp; omega, by simp [top]⟩, by simp, ?_, ?_⟩
      · rintro i rfl
        refine ⟨szb, _, hb1, hself, rfl, ⟨⟨le_rfl, ?_, le_rfl, ?_⟩, ?_⟩⟩ <;> simp only [hb2]
        · omega
        · omega
        · intro t _ h
          obtain ⟨⟨bw, bh⟩, bi, bf⟩ := b
          simp only [sky] at h ⊢
          rw [if_pos (by omega)]
          omega
      · rintro i j rfl rfl h
        exact absurd rfl h
    have I1 := append_inv (r := c) I0 hc1 (fun h => hnd.1.1 h.symm) hc2 hc3 ((List.pairwise_cons.mp hsort).1 c (by simp))
    have I2 := foldl_inv rest I1 (fun r hr => by
      obtain ⟨g1, g2, g3⟩ := hmem r (by simp [hr])
      refine ⟨g1, ?_, g2, g3, (List.pairwise_cons.mp hsort).1 r (by simp [hr])⟩
      rintro (he | he)
      · exact hnd.2.1 (he ▸ List.mem_map_of_mem hr)
      · exact hnd.1.2 (he ▸ List.mem_map_of_mem hr)) hnd.2.2
    have hall : ∀ i, i < sizes.length → (i ∈ rest.map Unplaced.ind ∨ i = c.ind ∨ i = b.ind) := by
      intro i hi
      have : i ∈ (b :: c :: rest).map Unplaced.ind := hind.mem_iff.mpr (List.mem_range.mpr hi)
      simp only [List.map_cons, List.mem_cons] at this ⊢
      tauto
    refine ⟨_, _, rfl, I2.len, ?_, ?_⟩
    · intro i sz p h1 h3
      obtain ⟨sz', p', g1, g2, g3, g4⟩ := I2.ok i (hall i (List.getElem?_eq_some_iff.mp h1).1)
      obtain rfl := Option.some.inj (g1.symm.trans h1)
      obtain rfl := Option.some.inj (g2.symm.trans h3)
      exact ⟨g3, g4.inside⟩
    · intro i j sz sz' p p' hij e1 e2 e3 e4
      exact I2.dis i j (hall i (List.getElem?_eq_some_iff.mp e1).1) (hall j (List.getElem?_eq_some_iff.mp e3).1) hij _ _ _ _ e1 e2 e3 e4

example : packRectangles [(3, 1), (2, 5), (1, 1), (2, 2), (4, 3)] =
    some ((5, 7), [⟨4, 2, true, true⟩, ⟨0, 0, true, true⟩, ⟨2, 5, false, true⟩, ⟨0, 5, false, true⟩, ⟨0, 2, false, true⟩]) := by
  decide +kernel

/-- The precondition of `pack_rectangles`: fewer than two rectangles are refused. -/
theorem pack_error {sizes : List (Int × Int)} : packRectangles sizes = none ↔ sizes.length < 2 := by
  constructor
  · intro h
    by_contra hc
    rw [packRectangles, if_neg hc] at h
    have hlen : ((mkQueue sizes).insertionSort fun a b => key a ≤ key b).reverse.length = sizes.length := by
      simp [mkQueue, List.length_insertionSort]
    generalize ((mkQueue sizes).insertionSort fun a b => key a ≤ key b).reverse = q at h hlen
    match q, hlen with
    | [], hl => simp at hl; omega
    | [_], hl => simp at hl; omega
    | b :: c :: rest, _ => simp at h
  · intro h
    rw [packRectangles, if_pos h]

/-! ### `pack_unique_rectangles` -/

/-- Invariant of the deduplication loop after the rectangles `pre`. -/
structure UInv (pre : List Rect) (m : List (Nat × Nat)) (ids : List (Nat × Bool)) (us : List (Int × Int)) : Prop where
  len : ids.length = pre.length
  ent : ∀ (i : Nat) (r : Rect), pre[i]? = some r → ∃ u b, ids[i]? = some (u, b) ∧ m.lookup r.identifier = some u ∧
    us[u]? = some (r.xsize, r.ysize) ∧ (b = true ↔ ∀ j < i, ∀ r', pre[j]? = some r' → r'.identifier ≠ r.identifier)
  bnd : ∀ k u, m.lookup k = some u → u < us.length ∧ ∃ r ∈ pre, r.identifier = k
  inj : ∀ k k' u, m.lookup k = some u → m.lookup k' = some u → k = k'
  sz : ∀ s ∈ us, ∃ r ∈ pre, s = (r.xsize, r.ysize)

theorem getElem?_append_one {α : Type*} {l : List α} {a b : α} {i : Nat} (h : (l ++ [a])[i]? = some b) :
    l[i]? = some b ∨ (i = l.length ∧ b = a) := by
  rcases lt_trichotomy i l.length with h1 | h1 | h1
  · rw [List.getElem?_append_left h1] at h
    exact Or.inl h
  · subst h1
    rw [List.getElem?_append_right le_rfl] at h
    right
    simpa using h.symm
  · rw [List.getElem?_append_right (by omega)] at h
    obtain ⟨k, hk⟩ : ∃ k, i - l.length = k + 1 := ⟨i - l.length - 1, by omega⟩
    rw [hk] at h
    simp at h

theorem uniqLoop_spec : ∀ (rs pre : List Rect) (m : List (Nat × Nat)) (ids : List (Nat × Bool)) (us : List (Int × Int)),
    UInv pre m ids us → (∀ r ∈ pre ++ rs, ∀ r' ∈ pre ++ rs, r.identifier = r'.identifier → r.xsize = r'.xsize ∧ r.ysize = r'.ysize) →
    ∃ m', UInv (pre ++ rs) m' (uniqLoop m ids us rs).1 (uniqLoop m ids us rs).2 := by
  intro rs
  induction rs with
  | nil => intro pre m ids us h _; exact ⟨m, by simpa [uniqLoop] using h⟩
  | cons r rs ih =>
    intro pre m ids us h hs
    have hassoc : pre ++ r :: rs = (pre ++ [r]) ++ rs := by simp
    rw [hassoc] at hs ⊢
    unfold uniqLoop
    cases hl : m.lookup r.identifier with
    | none =>
      simp only []
      refine ih (pre ++ [r]) _ _ _ ⟨by simp [h.len], ?_, ?_, ?_, ?_⟩ hs
      · intro i q hq
        rcases getElem?_append_one hq with hq | ⟨rfl, rfl⟩
        · obtain ⟨u, b, h1, h2, h3, h4⟩ := h.ent i q hq
          have hi : i < pre.length := (List.getElem?_eq_some_iff.mp hq).1
          have hu : u < us.length := (h.bnd _ _ h2).1
          refine ⟨u, b, ?_, ?_, ?_, ?_⟩
          · rw [List.getElem?_append_left (by rw [h.len]; exact hi)]; exact h1
          · rw [List.lookup_cons]
            have : (q.identifier == r.identifier) = false := by
              rw [beq_eq_false_iff_ne]
              intro he
              rw [he, hl] at h2
              exact absurd h2 (by simp)
            rw [this]; exact h2
          · rw [List.getElem?_append_left hu]; exact h3
          · rw [h4]
            constructor
            · intro g j hj r' hr'
              rw [List.getElem?_append_left (by omega)] at hr'
              exact g j hj r' hr'
            · intro g j hj r' hr'
              exact g j hj r' (by rw [List.getElem?_append_left (by omega)]; exact hr')
        · refine ⟨us.length, true, ?_, by simp, ?_, ?_⟩
          · rw [← h.len, List.getElem?_append_right le_rfl]; simp
          · rw [List.getElem?_append_right le_rfl]; simp
          · refine iff_of_true rfl ?_
            intro j hj r' hr' he
            rw [List.getElem?_append_left hj] at hr'
            obtain ⟨u, b, -, h2, -⟩ := h.ent j r' hr'
            rw [he, hl] at h2
            exact absurd h2 (by simp)
      · intro k u hk
        rw [List.lookup_cons] at hk
        split at hk
        · rename_i hkr
          obtain rfl := Option.some.inj hk
          exact ⟨by simp, r, by simp, (beq_iff_eq.mp hkr).symm⟩
        · obtain ⟨h1, q, hq, h2⟩ := h.bnd k u hk
          exact ⟨by simp; omega, q, by simp [hq], h2⟩
      · intro k k' u hk hk'
        rw [List.lookup_cons] at hk hk'
        split at hk <;> split at hk'
        · rename_i h1 h2
          grind
        · obtain rfl := Option.some.inj hk
          have := (h.bnd _ _ hk').1
          omega
        · obtain rfl := Option.some.inj hk'
          have := (h.bnd _ _ hk).1
          omega
        · exact h.inj k k' u hk hk'
      · intro s hs
        rcases List.mem_append.mp hs with hs | hs
        · obtain ⟨q, hq, h2⟩ := h.sz s hs
          exact ⟨q, by simp [hq], h2⟩
        · exact ⟨r, by simp, List.mem_singleton.mp hs⟩
    | some u =>
      simp only []
      refine ih (pre ++ [r]) _ _ _ ⟨by simp [h.len], ?_, ?_, h.inj, ?_⟩ hs
      · intro i q hq
        rcases getElem?_append_one hq with hq | ⟨rfl, rfl⟩
        · obtain ⟨v, b, h1, h2, h3, h4⟩ := h.ent i q hq
          have hi : i < pre.length := (List.getElem?_eq_some_iff.mp hq).1
          refine ⟨v, b, ?_, h2, h3, ?_⟩
          · rw [List.getElem?_append_left (by rw [h.len]; exact hi)]; exact h1
          · rw [h4]
            constructor
            · intro g j hj r' hr'
              rw [List.getElem?_append_left (by omega)] at hr'
              exact g j hj r' hr'
            · intro g j hj r' hr'
              exact g j hj r' (by rw [List.getElem?_append_left (by omega)]; exact hr')
        · obtain ⟨hu, q0, hq0, he⟩ := h.bnd _ _ hl
          obtain ⟨j, hj, hjq⟩ := List.getElem_of_mem hq0
          have hjq' : pre[j]? = some q0 := by rw [List.getElem?_eq_getElem hj, hjq]
          obtain ⟨v, b, h1, h2, h3, h4⟩ := h.ent j q0 hjq'
          rw [he, hl] at h2
          obtain rfl := Option.some.inj h2
          refine ⟨u, false, ?_, hl, ?_, ?_⟩
          · rw [← h.len, List.getElem?_append_right le_rfl]; simp
          · obtain ⟨e1, e2⟩ := hs q0 (by simp [hq0]) q (by simp) he
            rw [h3, e1, e2]
          · refine iff_of_false (by simp) ?_
            intro g
            exact g j hj q0 (by rw [List.getElem?_append_left hj]; exact hjq') he
      · intro k v hk
        obtain ⟨h1, q, hq, h2⟩ := h.bnd k v hk
        exact ⟨h1, q, by simp [hq], h2⟩
      · intro s hs
        obtain ⟨q, hq, h2⟩ := h.sz s hs
        exact ⟨q, by simp [hq], h2⟩

theorem covers_first (s : Int × Int) (p : Placed) (f : Bool) (a b : Int) : Covers s { p with isFirst := f } a b ↔ Covers s p a b := Iff.rfl

theorem inside_first (t s : Int × Int) (p : Placed) (f : Bool) : Inside t s { p with isFirst := f } ↔ Inside t s p := Iff.rfl

/-- **`pack_unique_rectangles`**: for at least two rectangles of positive size, where equal identifiers imply equal sizes: every
rectangle is placed inside the returned box; rectangles with one identifier share one location, of which exactly the first has
`is_first`; rectangles with different identifiers share no cell. -/
theorem packUnique_spec {rs : List Rect} (h2 : 2 ≤ rs.length) (hpos : ∀ r ∈ rs, 0 < r.xsize ∧ 0 < r.ysize)
    (hid : ∀ r ∈ rs, ∀ r' ∈ rs, r.identifier = r'.identifier → r.xsize = r'.xsize ∧ r.ysize = r'.ysize) :
    ∃ total locs, packUnique rs = some (total, locs) ∧ locs.length = rs.length ∧
      (∀ (i : Nat) (r : Rect) (p : Placed), rs[i]? = some r → locs[i]? = some p → Inside total (r.xsize, r.ysize) p ∧
        (p.isFirst = true ↔ ∀ j < i, ∀ r', rs[j]? = some r' → r'.identifier ≠ r.identifier)) ∧
      (∀ (i j : Nat) (r r' : Rect) (p p' : Placed), rs[i]? = some r → locs[i]? = some p → rs[j]? = some r' → locs[j]? = some p' →
        (r.identifier = r'.identifier → p.x = p'.x ∧ p.y = p'.y ∧ p.flipped = p'.flipped) ∧
        (r.identifier ≠ r'.identifier → ∀ a b, ¬ (Covers (r.xsize, r.ysize) p a b ∧ Covers (r'.xsize, r'.ysize) p' a b))) := by
  obtain ⟨m, hU⟩ := uniqLoop_spec rs [] [] [] [] ⟨rfl, by simp, by simp, by simp, by simp⟩ (by simpa using hid)
  rw [List.nil_append] at hU
  rw [packUnique, if_neg (by omega)]
  simp only []
  generalize uniqLoop [] [] [] rs = q at hU
  obtain ⟨ids, us⟩ := q
  simp only at hU ⊢
  have hrs0 : ∃ r0, rs[0]? = some r0 := ⟨rs[0], List.getElem?_eq_getElem (by omega)⟩
  obtain ⟨r0, hr0⟩ := hrs0
  by_cases h1 : us.length = 1
  · rw [if_pos h1]
    obtain ⟨s0, rfl⟩ := List.length_eq_one_iff.mp h1
    have hall : ∀ (i : Nat) (r : Rect), rs[i]? = some r → m.lookup r.identifier = some 0 ∧ s0 = (r.xsize, r.ysize) := by
      intro i r hr
      obtain ⟨u, b, g1, g2, g3, -⟩ := hU.ent i r hr
      have : u = 0 := by have := (hU.bnd _ _ g2).1; simpa using this
      subst this
      exact ⟨g2, by simpa using g3⟩
    have hloc : ∀ (i : Nat) (p : Placed), (⟨0, 0, false, true⟩ :: List.replicate (rs.length - 1) (⟨0, 0, false, false⟩ : Placed))[i]? = some p →
        p.x = 0 ∧ p.y = 0 ∧ p.flipped = false ∧ (p.isFirst = true ↔ i = 0) := by
      intro i p hp
      cases i with
      | zero => obtain rfl := Option.some.inj hp; simp
      | succ i =>
        rw [List.getElem?_cons_succ] at hp
        obtain rfl := List.eq_of_mem_replicate (List.mem_of_getElem? hp)
        simp
    refine ⟨s0, _, rfl, by simp; omega, ?_, ?_⟩
    · intro i r p hr hp
      obtain ⟨e1, e2, e3, e4⟩ := hloc i p hp
      refine ⟨?_, ?_⟩
      · rw [Inside, e1, e2, e3, (hall i r hr).2]; simp [orient]
      · rw [e4]
        constructor
        · rintro rfl j hj; omega
        · intro g
          by_contra hi
          exact g 0 (by omega) r0 hr0 (hU.inj _ _ 0 (hall 0 r0 hr0).1 (hall i r hr).1)
    · intro i j r r' p p' hr hp hr' hp'
      obtain ⟨e1, e2, e3, -⟩ := hloc i p hp
      obtain ⟨e1', e2', e3', -⟩ := hloc j p' hp'
      refine ⟨fun _ => ⟨by rw [e1, e1'], by rw [e2, e2'], by rw [e3, e3']⟩, ?_⟩
      intro hne
      exact absurd (hU.inj _ _ 0 (hall i r hr).1 (hall j r' hr').1) hne
  · rw [if_neg h1]
    have hu0 : 0 < us.length := by
      obtain ⟨u, b, g1, g2, g3, -⟩ := hU.ent 0 r0 hr0
      have := (hU.bnd _ _ g2).1
      omega
    obtain ⟨total, ul, e1, e2, e3, e4⟩ := pack_spec (sizes := us) (by omega) (by
      intro s hs
      obtain ⟨r, hr, rfl⟩ := hU.sz s hs
      exact hpos r hr)
    rw [e1]
    simp only [Option.bind_eq_bind, Option.bind_some]
    rw [P3D.Chamfer.mapM_some ids _ (fun i => { ul.getD i.1 ⟨0, 0, false, false⟩ with isFirst := i.2 })]
    · simp only [Option.bind_some]
      have hget : ∀ (i : Nat) (r : Rect) (p : Placed), rs[i]? = some r →
          (ids.map fun i => ({ ul.getD i.1 ⟨0, 0, false, false⟩ with isFirst := i.2 } : Placed))[i]? = some p →
          ∃ u q, m.lookup r.identifier = some u ∧ us[u]? = some (r.xsize, r.ysize) ∧ ul[u]? = some q ∧
            p.x = q.x ∧ p.y = q.y ∧ p.flipped = q.flipped ∧
            (p.isFirst = true ↔ ∀ j < i, ∀ r', rs[j]? = some r' → r'.identifier ≠ r.identifier) := by
        intro i r p hr hp
        obtain ⟨u, b, g1, g2, g3, g4⟩ := hU.ent i r hr
        rw [List.getElem?_map, g1] at hp
        obtain rfl := Option.some.inj hp
        have hu : u < ul.length := by rw [e2]; exact (hU.bnd _ _ g2).1
        refine ⟨u, ul[u], g2, g3, List.getElem?_eq_getElem hu, ?_, ?_, ?_, g4⟩ <;>
          simp [List.getD_eq_getElem?_getD, List.getElem?_eq_getElem hu]
      refine ⟨total, _, rfl, by simp [hU.len], ?_, ?_⟩
      · intro i r p hr hp
        obtain ⟨u, q, g1, g2, g3, k1, k2, k3, k4⟩ := hget i r p hr hp
        refine ⟨?_, k4⟩
        have := (e3 u _ q g2 g3).2
        simp only [Inside, k1, k2, k3] at this ⊢
        exact this
      · intro i j r r' p p' hr hp hr' hp'
        obtain ⟨u, q, g1, g2, g3, k1, k2, k3, -⟩ := hget i r p hr hp
        obtain ⟨u', q', g1', g2', g3', k1', k2', k3', -⟩ := hget j r' p' hr' hp'
        constructor
        · intro he
          rw [he, g1'] at g1
          obtain rfl := Option.some.inj g1
          obtain rfl := Option.some.inj (g3.symm.trans g3')
          exact ⟨by rw [k1, k1'], by rw [k2, k2'], by rw [k3, k3']⟩
        · intro hne a b
          have hu : u ≠ u' := by
            rintro rfl
            exact hne (hU.inj _ _ u g1 g1')
          have := e4 u u' _ _ q q' hu g2 g3 g2' g3' a b
          simp only [Covers, k1, k2, k3, k1', k2', k3'] at this ⊢
          exact this
    · rintro ⟨u, b⟩ hi
      obtain ⟨i, hi', hib⟩ := List.getElem_of_mem hi
      have hlt : i < rs.length := by rw [← hU.len]; exact hi'
      obtain ⟨u', b', g1, g2, -⟩ := hU.ent i rs[i] (List.getElem?_eq_getElem hlt)
      rw [List.getElem?_eq_getElem hi', hib] at g1
      obtain ⟨rfl, rfl⟩ := Prod.mk.inj (Option.some.inj g1)
      have hu : u < ul.length := by rw [e2]; exact (hU.bnd _ _ g2).1
      simp [List.getD_eq_getElem?_getD, List.getElem?_eq_getElem hu]

example : packUnique [⟨2, 3, 7⟩, ⟨4, 1, 9⟩, ⟨2, 3, 7⟩] =
    some ((4, 3), [⟨0, 1, true, true⟩, ⟨0, 0, false, true⟩, ⟨0, 1, true, false⟩]) := by decide +kernel

end P3D.PackRect
