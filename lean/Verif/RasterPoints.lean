/-
Point rasterization: `csrc/rasterize_points/rasterize_points_cpu.cpp`, `rasterize_points.cu` (naive kernel),
`rasterization_utils.h`.

Floats are an ordered field.  Packed tensors are lists; reading beyond their end is `none` (undefined behaviour).
A cell holds the entries of the three output tensors for one (n, y, x, k).
-/
import Verif.RasterQueue
import Verif.Geometry
import Verif.Chunks
import Verif.Store
import Verif.Scatter
import Mathlib.Data.Real.Basic
import Mathlib.Tactic.FieldSimp

set_option linter.unusedSectionVars false

namespace P3D.Raster

section defs
variable {F : Type} [Field F] [LinearOrder F] [IsStrictOrderedRing F]

/-- `NonSquareNdcRange`, `rasterization_utils.h:16-24`. -/
def ndcRange (S1 S2 : Nat) : F := if S1 > S2 then ((S1 : F) * 2) / S2 else 2

/-- `PixToNonSquareNdc`, `rasterization_utils.h:34-40`. -/
def pixToNdc (i S1 S2 : Nat) : F :=
  -(ndcRange S1 S2 / 2) + (ndcRange S1 S2 * i + ndcRange S1 S2 / 2) / S1

/-- The tuple `(z, idx, dist2)` of the priority queue. -/
structure PFrag (F : Type) where
  z : F
  idx : Nat
  dist2 : F
  deriving DecidableEq, Repr

/-- The comparison of `std::tuple<float, int, float>`. -/
instance : LinearOrder (PFrag F) :=
  LinearOrder.lift' (fun f => toLex (f.z, toLex (f.idx, f.dist2))) (by
    rintro ⟨a, b, c⟩ ⟨a', b', c'⟩ h
    have h1 := congrArg ofLex h
    simp only [ofLex_toLex, Prod.mk.injEq] at h1
    have h2 := congrArg ofLex h1.2
    simp only [ofLex_toLex, Prod.mk.injEq] at h2
    rw [h1.1, h2.1, h2.2])

/-- One entry of `point_idxs`, `zbuf` and `pix_dists`. -/
structure PCell (F : Type) where
  idx : ℤ
  z : F
  dist2 : F
  deriving DecidableEq, Repr

/-- `torch::full(.., -1)`, `rasterize_points_cpu.cpp:30-32`. -/
def PCell.empty : PCell F := ⟨-1, -1, -1⟩

/-- Lines 88-90. -/
def PFrag.cell (f : PFrag F) : PCell F := ⟨f.idx, f.z, f.dist2⟩

/-- A point of a cloud with its packed index and radius. -/
structure PItem (F : Type) where
  idx : Nat
  pos : V3 F
  radius : F

/-- Lines 44-47 and 61-65: the points `first .. first + num - 1` of the packed tensors. -/
def cloudItems (pts : List (V3 F)) (radius : List F) (first num : Nat) : Option (List (PItem F)) :=
  (List.range' first num).mapM fun p => do
    let v ← pts[p]?
    let r ← radius[p]?
    some ⟨p, v, r⟩

/-- Lines 61-74: does the point cover the pixel centre `(xf, yf)`? -/
def pointHit (xf yf : F) (it : PItem F) : Option (PFrag F) :=
  let radius2 := it.radius * it.radius
  if it.pos.z < 0 then none
  else
    let dx := it.pos.x - xf
    let dy := it.pos.y - yf
    let dist2 := dx * dx + dy * dy
    if dist2 < radius2 then some ⟨it.pos.z, it.idx, dist2⟩ else none

/-- Skip the point or put it into the queue. -/
def stepHit {β γ : Type} (push : γ → β → γ) (q : γ) : Option β → γ
  | none => q
  | some f => push q f

/-- The same with a queue operation that may fail. -/
def stepHitM {β γ : Type} (push : γ → β → Option γ) (q : γ) : Option β → Option γ
  | none => some q
  | some f => push q f

/-- Lines 58-91: one pixel. -/
def pointPixelCpu (K : Nat) (items : List (PItem F)) (xf yf : F) : List (PCell F) :=
  drain PFrag.cell
    (items.foldl (fun q it => stepHit (pqPush K) q (pointHit xf yf it)) [])
    (List.replicate K PCell.empty)

/-- Lines 49-92: one image. -/
def pointImageCpu (H W K : Nat) (items : List (PItem F)) : List (List (List (PCell F))) :=
  (List.range H).map fun yi => (List.range W).map fun xi =>
    pointPixelCpu K items (pixToNdc (W - 1 - xi) W H) (pixToNdc (H - 1 - yi) H W)

/-- `RasterizePointsNaiveCpu`, lines 14-96. -/
def naivePointsCpu (pts : List (V3 F)) (radius : List F) (first num : List Nat) (H W K : Nat) :
    Option (List (List (List (List (PCell F))))) :=
  (first.zip num).mapM fun fn => (cloudItems pts radius fn.1 fn.2).map (pointImageCpu H W K)

/-- `CheckPixelInsidePoint`, `rasterize_points.cu:39-79`: the test (the differences have the opposite sign). -/
def pointHitGpu (xf yf : F) (it : PItem F) : Option (PFrag F) :=
  let radius2 := it.radius * it.radius
  if it.pos.z < 0 then none
  else
    let dx := xf - it.pos.x
    let dy := yf - it.pos.y
    let dist2 := dx * dx + dy * dy
    if dist2 < radius2 then some ⟨it.pos.z, it.idx, dist2⟩ else none

/-- `rasterize_points.cu:107-146`: one pixel of the GPU kernel. `operator<` compares depths (lines 26-28). -/
def pointPixelGpu (K : Nat) (items : List (PItem F)) (xf yf : F) : Option (List (PCell F)) := do
  let s ← items.foldlM (fun s it => stepHitM (gpuPush PFrag.z K) s (pointHitGpu xf yf it)) gq0
  let q := bubbleSort PFrag.z s.q
  some (q.map PFrag.cell ++ List.replicate (K - q.length) PCell.empty)

end defs

/-! ## Pixel centres -/

section centres
variable {F : Type} [Field F] [LinearOrder F] [IsStrictOrderedRing F]

theorem ndcRange_pos {S1 S2 : Nat} (h2 : 0 < S2) : (0 : F) < ndcRange S1 S2 := by
  unfold ndcRange
  split
  · have : 0 < S1 := by omega
    positivity
  · norm_num

/-- Centre of the `i`-th of `S1` equal intervals of `[-range/2, range/2]`, traversed downwards. -/
def centre (i S1 S2 : Nat) : F := ndcRange S1 S2 / 2 * (1 - (2 * (i : F) + 1) / S1)

/-- Pixel `xi` counted from the left edge, `+X` pointing left: the `xi`-th of `W` equal intervals of
`[-range/2, range/2]`, traversed downwards. -/
theorem pixel_centre {W H xi : Nat} (hx : xi < W) :
    pixToNdc (F := F) (W - 1 - xi) W H = centre xi W H := by
  unfold pixToNdc centre
  have hW : (W : F) ≠ 0 := by
    have : 0 < W := by omega
    positivity
  have e : ((W - 1 - xi : Nat) : F) = W - 1 - xi := by
    rw [Nat.cast_sub (by omega), Nat.cast_sub (by omega)]; simp
  simp only [e]
  field_simp
  ring

/-- The pixels are squares whose side is `2 / min(H, W)`. -/
theorem pixel_size {W H : Nat} (hW : 0 < W) (hH : 0 < H) : (ndcRange W H : F) / W = 2 / (min H W : Nat) := by
  unfold ndcRange
  have h1 : (W : F) ≠ 0 := by positivity
  have h2 : (H : F) ≠ 0 := by positivity
  split
  · rename_i h
    rw [Nat.min_eq_left h.le]; field_simp
  · rename_i h
    rw [Nat.min_eq_right (by omega)]

theorem pixToNdc_eq {i S1 S2 : Nat} : pixToNdc (F := F) i S1 S2
    = ndcRange S1 S2 * ((i : F) / S1 - 1 / 2 + 1 / (2 * S1)) := by
  unfold pixToNdc
  rw [add_div, mul_div_assoc]
  ring

theorem pixToNdc_mono {i j S1 S2 : Nat} (h2 : 0 < S2) (h : i ≤ j) :
    pixToNdc (F := F) i S1 S2 ≤ pixToNdc j S1 S2 := by
  rw [pixToNdc_eq, pixToNdc_eq]
  apply mul_le_mul_of_nonneg_left _ (ndcRange_pos h2).le
  have : (i : F) / S1 ≤ (j : F) / S1 := by
    apply div_le_div_of_nonneg_right _ (by positivity)
    exact_mod_cast h
  linarith

end centres

/-! ## C29 -/

section cpu
variable {F : Type} [Field F] [LinearOrder F] [IsStrictOrderedRing F]

theorem pfrag_z_mono (a b : PFrag F) (h : a ≤ b) : a.z ≤ b.z := by
  have h' : toLex (a.z, toLex (a.idx, a.dist2)) ≤ toLex (b.z, toLex (b.idx, b.dist2)) := h
  rw [Prod.Lex.toLex_le_toLex] at h'
  rcases h' with h | h
  · exact h.le
  · exact h.1.le

theorem pfrag_lt_iff (a b : PFrag F) : a < b ↔ a.z < b.z ∨ a.z = b.z ∧ (a.idx < b.idx ∨ a.idx = b.idx ∧ a.dist2 < b.dist2) := by
  have h : a < b ↔ toLex (a.z, toLex (a.idx, a.dist2)) < toLex (b.z, toLex (b.idx, b.dist2)) := Iff.rfl
  rw [h, Prod.Lex.toLex_lt_toLex, Prod.Lex.toLex_lt_toLex]

theorem foldl_hits {α β γ : Type} (hit : α → Option β) (push : γ → β → γ) (l : List α) (q : γ) :
    l.foldl (fun q it => stepHit push q (hit it)) q = (l.filterMap hit).foldl push q := by
  induction l generalizing q with
  | nil => rfl
  | cons a l ih =>
    rw [List.foldl_cons, ih, List.filterMap_cons]
    cases hit a <;> rfl

theorem foldlM_hits {α β γ : Type} (hit : α → Option β) (push : γ → β → Option γ) (l : List α) (q : γ) :
    l.foldlM (fun q it => stepHitM push q (hit it)) q
      = (l.filterMap hit).foldlM push q := by
  induction l generalizing q with
  | nil => rfl
  | cons a l ih =>
    rw [List.foldlM_cons, List.filterMap_cons]
    cases hit a with
    | none => exact ih q
    | some f =>
      simp only [List.foldlM_cons, stepHitM]
      cases push q f with
      | none => rfl
      | some q' => exact ih q'

/-- `r` followed by `-1`s up to length `K`. -/
def padded (K : Nat) (r : List (PFrag F)) : List (PCell F) :=
  r.map PFrag.cell ++ List.replicate (K - r.length) PCell.empty

/-- The fragments of a pixel: points in front of the camera whose disc contains the pixel centre. -/
def Covers (xf yf : F) (items : List (PItem F)) (f : PFrag F) : Prop :=
  ∃ it ∈ items, f.idx = it.idx ∧ f.z = it.pos.z ∧ 0 ≤ it.pos.z
    ∧ f.dist2 = (it.pos.x - xf) ^ 2 + (it.pos.y - yf) ^ 2 ∧ f.dist2 < it.radius ^ 2

theorem mem_hits {xf yf : F} {items : List (PItem F)} {f : PFrag F} :
    f ∈ items.filterMap (pointHit xf yf) ↔ Covers xf yf items f := by
  rw [List.mem_filterMap]
  unfold Covers
  constructor
  · rintro ⟨it, hit, h⟩
    refine ⟨it, hit, ?_⟩
    simp only [pointHit] at h
    split_ifs at h with h1 h2
    simp only [Option.some.injEq] at h
    subst h
    exact ⟨rfl, rfl, not_lt.mp h1, by ring, by simpa [pow_two] using h2⟩
  · rintro ⟨it, hit, h1, h2, h3, h4, h5⟩
    refine ⟨it, hit, ?_⟩
    simp only [pointHit]
    rw [if_neg (not_lt.mpr h3), if_pos (by rw [h4] at h5; rw [← pow_two, ← pow_two, ← pow_two]; exact h5)]
    obtain ⟨z, i, d⟩ := f
    simp only at h1 h2 h4
    simp only [Option.some.injEq, PFrag.mk.injEq]
    exact ⟨h2.symm, h1.symm, by rw [h4]; ring⟩

/-- **C29 (pixel).** A pixel holds the `K` smallest fragments in lexicographic order, then `-1`. -/
theorem pointPixelCpu_eq (K : Nat) (items : List (PItem F)) (xf yf : F) :
    pointPixelCpu K items xf yf = padded K (topK K (items.filterMap (pointHit xf yf))) := by
  unfold pointPixelCpu padded
  rw [foldl_hits, pqRun_eq, drain_eq _ _ _ (by rw [length_topK, List.length_replicate]; omega), List.drop_replicate]

theorem pointPixelCpu_spec (K : Nat) (items : List (PItem F)) (hnd : (items.map PItem.idx).Nodup) (xf yf : F) :
    ∃ r, pointPixelCpu K items xf yf = padded K r ∧ r.Pairwise (fun a b => a.z < b.z ∨ a.z = b.z ∧ a.idx < b.idx)
      ∧ (∀ f ∈ r, Covers xf yf items f) ∧ r.length ≤ K
      ∧ ∀ f, Covers xf yf items f → f ∉ r → r.length = K ∧ ∀ g ∈ r, g.z < f.z ∨ g.z = f.z ∧ g.idx < f.idx := by
  have hN : ((items.filterMap (pointHit xf yf)).map PFrag.idx).Nodup := by
    have : ((items.filterMap (pointHit xf yf)).map PFrag.idx).Sublist (items.map PItem.idx) := by
      clear hnd
      induction items with
      | nil => simp
      | cons it items ih =>
        rw [List.filterMap_cons]
        cases h : pointHit xf yf it with
        | none => exact ih.cons _
        | some f =>
          have : f.idx = it.idx := by
            simp only [pointHit] at h
            split_ifs at h
            simp only [Option.some.injEq] at h
            subst h; rfl
          simp only [List.map_cons, this]
          exact ih.cons_cons _
    exact this.nodup hnd
  have hinj : ∀ a ∈ items.filterMap (pointHit xf yf), ∀ b ∈ items.filterMap (pointHit xf yf), a.idx = b.idx → a = b :=
    fun a ha b hb h => List.inj_on_of_nodup_map hN ha hb h
  have hndl := hN.of_map
  have hk := topK_isKSmallest K (items.filterMap (pointHit xf yf))
  obtain ⟨rest, hp, hle⟩ := hk.split
  have hnd2 : (topK K (items.filterMap (pointHit xf yf)) ++ rest).Nodup := hp.nodup_iff.mpr hndl
  rw [List.nodup_append] at hnd2
  have key : ∀ a ∈ items.filterMap (pointHit xf yf), ∀ b ∈ items.filterMap (pointHit xf yf), a ≤ b → a ≠ b →
      a.z < b.z ∨ a.z = b.z ∧ a.idx < b.idx := by
    intro a ha b hb h hne
    rcases (pfrag_lt_iff a b).mp (lt_of_le_of_ne h hne) with h | ⟨h1, h2 | ⟨h2, _⟩⟩
    · exact Or.inl h
    · exact Or.inr ⟨h1, h2⟩
    · exact absurd (hinj a ha b hb h2) hne
  refine ⟨_, pointPixelCpu_eq K items xf yf, ?_, fun f hf => mem_hits.mp (mem_of_mem_topK hf), ?_, ?_⟩
  · have h1 := List.Pairwise.and hk.sorted hnd2.1
    refine h1.imp_of_mem ?_
    intro a b ha hb hab
    exact key a (mem_of_mem_topK ha) b (mem_of_mem_topK hb) hab.1 hab.2
  · rw [length_topK]; omega
  · intro f hf hnr
    have hf' := mem_hits.mpr hf
    have hrest : f ∈ rest := by
      rcases List.mem_append.mp (hp.mem_iff.mpr hf') with h | h
      · exact absurd h hnr
      · exact h
    refine ⟨?_, fun g hg => ?_⟩
    · have h1 := hp.length_eq
      have h2 := List.length_pos_of_mem hrest
      rw [List.length_append, length_topK] at h1
      rw [length_topK]; omega
    · exact key g (mem_of_mem_topK hg) f hf' (hle g hg f hrest) (fun e => hnr (e ▸ hg))

/-- **C29 (smaller K).** Asking for fewer points returns a prefix. -/
theorem pointPixelCpu_prefix {K K' : Nat} (h : K ≤ K') (items : List (PItem F)) (xf yf : F) :
    pointPixelCpu K items xf yf = (pointPixelCpu K' items xf yf).take K := by
  rw [pointPixelCpu_eq, pointPixelCpu_eq]
  unfold padded
  have e : topK K (items.filterMap (pointHit xf yf)) = (topK K' (items.filterMap (pointHit xf yf))).take K := by
    rw [topK, topK, List.take_take, Nat.min_eq_left h]
  rw [e, List.take_append, List.length_map, ← List.map_take, List.take_replicate]
  congr 2
  simp only [List.length_take]
  omega

theorem cloudItems_eq {pts : List (V3 F)} {radius : List F} {first num : Nat} (h1 : first + num ≤ pts.length)
    (h2 : first + num ≤ radius.length) :
    ∃ items, cloudItems pts radius first num = some items ∧ items.length = num
      ∧ ∀ i (hi : i < items.length) (hp : first + i < pts.length) (hr : first + i < radius.length),
          items[i] = ⟨first + i, pts[first + i], radius[first + i]⟩ := by
  induction num generalizing first with
  | zero => exact ⟨[], rfl, rfl, fun i hi => absurd hi (by simp)⟩
  | succ num ih =>
    obtain ⟨items, e, hl, hi⟩ := ih (first := first + 1) (by omega) (by omega)
    refine ⟨⟨first, pts[first], radius[first]⟩ :: items, ?_, by simp [hl], ?_⟩
    · unfold cloudItems at e ⊢
      rw [List.range'_succ, List.mapM_cons, e]
      simp [List.getElem?_eq_getElem (by omega : first < pts.length),
        List.getElem?_eq_getElem (by omega : first < radius.length)]
    · intro i hi' hp hr
      cases i with
      | zero => rfl
      | succ i =>
        have h3 := hi i (by simpa using hi') (by omega) (by omega)
        rw [List.getElem_cons_succ, h3]
        simp only [PItem.mk.injEq]
        refine ⟨by omega, ?_, ?_⟩ <;> congr 1 <;> omega

theorem cloudItems_nodup {pts : List (V3 F)} {radius : List F} {first num : Nat} {items : List (PItem F)}
    (h : cloudItems pts radius first num = some items) : items.map PItem.idx = List.range' first num := by
  unfold cloudItems at h
  induction num generalizing first items with
  | zero => simp at h; subst h; rfl
  | succ num ih =>
    rw [List.range'_succ, List.mapM_cons] at h
    cases h1 : pts[first]? with
    | none => simp [h1] at h
    | some v =>
      cases h2 : radius[first]? with
      | none => simp [h1, h2] at h
      | some r =>
        simp only [h1, h2, Option.bind_eq_bind, Option.bind_some] at h
        obtain ⟨its, e1, e2⟩ := Option.bind_eq_some_iff.mp h
        simp only [Option.pure_def, Option.some.injEq] at e2
        subst e2
        rw [List.range'_succ, List.map_cons, ih e1]

/-- **C29.** For packed clouds inside the tensors, every pixel of every image of the batch holds the `K` nearest
covering points of its cloud (by depth, then index), in order, and `-1` after them. -/
theorem naivePointsCpu_spec {pts : List (V3 F)} {radius : List F} {first num : List Nat} {H W K : Nat}
    (hl : first.length = num.length) (hP : ∀ fn ∈ first.zip num, fn.1 + fn.2 ≤ pts.length)
    (hR : radius.length = pts.length) :
    ∃ out, naivePointsCpu pts radius first num H W K = some out ∧ out.length = first.length ∧
      ∀ n (h1 : n < first.length) (h2 : n < num.length), ∃ items,
        cloudItems pts radius first[n] num[n] = some items ∧ ∃ img, out[n]? = some img ∧ img.length = H ∧
        ∀ yi < H, ∃ row, img[yi]? = some row ∧ row.length = W ∧ ∀ xi < W, ∃ r,
          row[xi]? = some (padded K r)
          ∧ r.Pairwise (fun a b => a.z < b.z ∨ a.z = b.z ∧ a.idx < b.idx)
          ∧ (∀ f ∈ r, Covers (centre xi W H) (centre yi H W) items f)
          ∧ r.length ≤ K
          ∧ ∀ f, Covers (centre xi W H) (centre yi H W) items f →
              f ∉ r → r.length = K ∧ ∀ g ∈ r, g.z < f.z ∨ g.z = f.z ∧ g.idx < f.idx := by
  have hm : ∀ l : List (Nat × Nat), (∀ fn ∈ l, fn.1 + fn.2 ≤ pts.length) →
      ∃ out, (l.mapM fun fn => (cloudItems pts radius fn.1 fn.2).map (pointImageCpu H W K)) = some out
        ∧ out.length = l.length ∧ ∀ n (h : n < l.length), ∃ items,
          cloudItems pts radius l[n].1 l[n].2 = some items ∧ out[n]? = some (pointImageCpu H W K items) := by
    intro l hl
    induction l with
    | nil => exact ⟨[], rfl, rfl, fun n h => absurd h (by simp)⟩
    | cons fn l ih =>
      obtain ⟨out, e, hlen, ho⟩ := ih (fun fn h => hl fn (by simp [h]))
      obtain ⟨items, ei, _, _⟩ := cloudItems_eq (pts := pts) (radius := radius) (hl fn (by simp)) (by rw [hR]; exact hl fn (by simp))
      refine ⟨pointImageCpu H W K items :: out, ?_, by simp [hlen], ?_⟩
      · rw [List.mapM_cons, ei, e]; rfl
      · intro n h
        cases n with
        | zero => exact ⟨items, ei, rfl⟩
        | succ n => exact ho n (by simpa using h)
  obtain ⟨out, e, hlen, ho⟩ := hm (first.zip num) hP
  refine ⟨out, e, by rw [hlen]; simp [hl], ?_⟩
  intro n h1 h2
  obtain ⟨items, ei, eo⟩ := ho n (by simp [← hl, h1])
  rw [List.getElem_zip] at ei
  refine ⟨items, ei, _, eo, by simp [pointImageCpu], ?_⟩
  intro yi hy
  refine ⟨(List.range W).map fun xi => pointPixelCpu K items (pixToNdc (W - 1 - xi) W H) (pixToNdc (H - 1 - yi) H W),
    by simp [pointImageCpu, hy], by simp, ?_⟩
  intro xi hx
  obtain ⟨r, e1, e2, e3, e4, e5⟩ := pointPixelCpu_spec K items
    (by rw [cloudItems_nodup ei]; exact List.nodup_range' ) (pixToNdc (W - 1 - xi) W H) (pixToNdc (H - 1 - yi) H W)
  rw [pixel_centre hx, pixel_centre hy] at e1 e3 e5
  exact ⟨r, by simp [hx, pixel_centre hx, pixel_centre hy, e1], e2, e3, e4, e5⟩

/-! ## GPU pixel -/

theorem pointHitGpu_eq (xf yf : F) (it : PItem F) : pointHitGpu xf yf it = pointHit xf yf it := by
  simp only [pointHitGpu, pointHit]
  have : (xf - it.pos.x) * (xf - it.pos.x) + (yf - it.pos.y) * (yf - it.pos.y)
      = (it.pos.x - xf) * (it.pos.x - xf) + (it.pos.y - yf) * (it.pos.y - yf) := by ring
  rw [this]

/-- **C32 (points).** The GPU pixel holds `K` covering points of smallest depth. -/
theorem pointPixelGpu_spec (K : Nat) (items : List (PItem F)) (xf yf : F) :
    ∃ r, pointPixelGpu K items xf yf = some (padded K r)
      ∧ NearestK PFrag.z K (items.filterMap (pointHit xf yf)) r := by
  have hz : ∀ f ∈ items.filterMap (pointHit xf yf), 0 ≤ f.z := by
    intro f hf
    obtain ⟨it, _, _, h2, h3, _⟩ := mem_hits.mp hf
    rw [h2]; exact h3
  obtain ⟨r, e, hr⟩ := gpuPixel_spec PFrag.z PFrag.z (fun _ _ h => h) K _ hz
  refine ⟨r, ?_, hr⟩
  unfold pointPixelGpu padded
  rw [show (pointHitGpu xf yf) = pointHit xf yf from funext (pointHitGpu_eq xf yf), foldlM_hits]
  unfold gpuPixel at e
  obtain ⟨s, es, rfl⟩ := Option.map_eq_some_iff.mp e
  rw [es]; rfl

/-- The CPU and GPU pixels show the same depths, and are equal if the covering points have distinct depths. -/
theorem pointPixel_cpu_gpu (K : Nat) (items : List (PItem F)) (xf yf : F) :
    (∃ o, pointPixelGpu K items xf yf = some o ∧ o.map PCell.z = (pointPixelCpu K items xf yf).map PCell.z)
    ∧ ((∀ f g, Covers xf yf items f → Covers xf yf items g → f.z = g.z → f = g) →
        pointPixelGpu K items xf yf = some (pointPixelCpu K items xf yf)) := by
  obtain ⟨r, e, hr⟩ := pointPixelGpu_spec K items xf yf
  have hc := topK_nearest PFrag.z pfrag_z_mono K (items.filterMap (pointHit xf yf))
  constructor
  · refine ⟨_, e, ?_⟩
    rw [pointPixelCpu_eq]
    have h1 : r.map PFrag.z = (topK K (items.filterMap (pointHit xf yf))).map PFrag.z := by rw [hr.depths, hc.depths]
    have h2 : r.length = (topK K (items.filterMap (pointHit xf yf))).length := by simpa using congrArg List.length h1
    unfold padded
    rw [List.map_append, List.map_append, List.map_map, List.map_map, h2]
    congr 1
  · intro hd
    rw [e, pointPixelCpu_eq, NearestK.unique PFrag.z (List.Perm.refl _)
      (fun a ha b hb h => hd a b (mem_hits.mp ha) (mem_hits.mp hb) h) hr hc]

end cpu

/-! ## Examples -/

/-- Three points over the pixel at the origin, one behind the camera. -/
def exItems : List (PItem ℚ) :=
  [⟨0, ⟨0, 0, 3⟩, 1⟩, ⟨1, ⟨1 / 2, 0, 1⟩, 1⟩, ⟨2, ⟨0, 0, -1⟩, 1⟩, ⟨3, ⟨0, 1 / 2, 2⟩, 1⟩, ⟨4, ⟨5, 5, 1⟩, 1⟩]

example : pointPixelCpu 2 exItems 0 0 = [⟨1, 1, 1 / 4⟩, ⟨3, 2, 1 / 4⟩]
    ∧ pointPixelCpu 4 exItems 0 0 = [⟨1, 1, 1 / 4⟩, ⟨3, 2, 1 / 4⟩, ⟨0, 3, 0⟩, ⟨-1, -1, -1⟩]
    ∧ pointPixelGpu 2 exItems 0 0 = some [⟨1, 1, 1 / 4⟩, ⟨3, 2, 1 / 4⟩] := by decide +kernel

example : pixToNdc (F := ℚ) 0 4 2 = -3 / 2 ∧ pixToNdc (F := ℚ) 3 4 2 = 3 / 2 ∧ pixToNdc (F := ℚ) 0 2 4 = -1 / 2 := by
  decide +kernel

example : naivePointsCpu (F := ℚ) [⟨0, 0, 1⟩, ⟨0, 0, 2⟩] [2, 2] [0, 1] [1, 1] 1 1 1
    = some [[[[⟨0, 1, 0⟩]]], [[[⟨1, 2, 0⟩]]]] := by decide +kernel

end P3D.Raster
