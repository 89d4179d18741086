/-
`RasterizePointsBackwardCpu`, `csrc/rasterize_points/rasterize_points_cpu.cpp:198-251`, and its GPU version
(`rasterize_points.cu:390-434`, the same contributions accumulated with atomicAdd in any order).
-/
import Verif.RasterPoints
import Verif.DistanceGrad
import Mathlib.Data.List.TakeWhile

set_option linter.unusedSectionVars false

namespace P3D.Raster

section defs
variable {F : Type} [Field F] [LinearOrder F] [IsStrictOrderedRing F]

/-- The incoming data of one (n, y, x, k): index, gradient of the depth, gradient of the squared distance. -/
structure GCell (F : Type) where
  idx : ℤ
  gz : F
  gd : F

/-- Lines 232-245: contributions of one cell to `grad_points`, entries (point, coordinate). -/
def cellContrib (pts : List (V3 F)) (xf yf : F) (c : GCell F) : Option (List ((Nat × Nat) × F)) := do
  let v ← pts[c.idx.toNat]?
  let dx := v.x - xf
  let dy := v.y - yf
  some [((c.idx.toNat, 0), 2 * c.gd * dx), ((c.idx.toNat, 1), 2 * c.gd * dy), ((c.idx.toNat, 2), c.gz)]

/-- Lines 227-246: one pixel; the loop stops at the first negative index. -/
def pixelContrib (pts : List (V3 F)) (xf yf : F) (cells : List (GCell F)) : Option (List ((Nat × Nat) × F)) :=
  ((cells.takeWhile fun c => decide (0 ≤ c.idx)).mapM (cellContrib pts xf yf)).map List.flatten

/-- Lines 214-248 for one image of `H` rows of `W` pixels. -/
def imageContrib (pts : List (V3 F)) (H W : Nat) (img : Nat → Nat → List (GCell F)) :
    Option (List ((Nat × Nat) × F)) :=
  ((List.range H).mapM fun y => ((List.range W).mapM fun x =>
    pixelContrib pts (pixToNdc (W - 1 - x) W H) (pixToNdc (H - 1 - y) H W) (img y x)).map List.flatten).map List.flatten

/-- All images. -/
def contribs (pts : List (V3 F)) (N H W : Nat) (data : Nat → Nat → Nat → List (GCell F)) :
    Option (List ((Nat × Nat) × F)) :=
  ((List.range N).mapM fun n => imageContrib pts H W (data n)).map List.flatten

/-- `grad_points`. -/
def pointsBackward (pts : List (V3 F)) (N H W : Nat) (data : Nat → Nat → Nat → List (GCell F)) :
    Option (Nat × Nat → F) :=
  (contribs pts N H W data).map Scatter.scatterAdd

end defs

/-! ## The derivative -/

/-- Coordinate `c` of a vector. -/
def coord {F : Type} (v : V3 F) : Nat → F
  | 0 => v.x
  | 1 => v.y
  | _ => v.z

open Scatter Geom

/-- What the incoming gradients weigh: `gz * zbuf + gd * dist2` for one cell, as a function of the points. -/
noncomputable def cellLoss (pts : Nat → V3 ℝ) (xf yf : ℝ) (c : GCell ℝ) : ℝ :=
  if c.idx < 0 then 0
  else c.gz * (pts c.idx.toNat).z
    + c.gd * (((pts c.idx.toNat).x - xf) ^ 2 + ((pts c.idx.toNat).y - yf) ^ 2)

/-- The scalar whose gradient is wanted: the pairing of the incoming gradients with the outputs of the forward pass,
for fixed indices. -/
noncomputable def loss (pts : Nat → V3 ℝ) (N H W : Nat) (data : Nat → Nat → Nat → List (GCell ℝ)) : ℝ :=
  ((List.range N).map fun n => ((List.range H).map fun y => ((List.range W).map fun x =>
    ((data n y x).map (cellLoss pts (centre x W H) (centre y H W))).sum).sum).sum).sum

theorem hd_sum {α : Type*} (l : List α) {f : α → ℝ → ℝ} {f' : α → ℝ} (h : ∀ a ∈ l, HasDerivAt (f a) (f' a) 0) :
    HasDerivAt (fun t => (l.map fun a => f a t).sum) (l.map f').sum 0 := by
  induction l with
  | nil => simpa using hasDerivAt_const (0 : ℝ) (0 : ℝ)
  | cons a l ih =>
    simp only [List.map_cons, List.sum_cons]
    exact (h a (by simp)).add (ih fun b hb => h b (by simp [hb]))

/-- Pairing of a list of contributions with a direction. -/
def pair (cs : List ((Nat × Nat) × ℝ)) (d : Nat → V3 ℝ) : ℝ := (cs.map fun c => c.2 * coord (d c.1.1) c.1.2).sum

theorem pair_flatten (ls : List (List ((Nat × Nat) × ℝ))) (d : Nat → V3 ℝ) :
    pair ls.flatten d = (ls.map fun l => pair l d).sum := by
  induction ls with
  | nil => rfl
  | cons l ls ih =>
    rw [List.flatten_cons, List.map_cons, List.sum_cons, ← ih]
    unfold pair
    rw [List.map_append, List.sum_append]

theorem mapM_flatten_pair {α : Type} {l : List α} {f : α → Option (List ((Nat × Nat) × ℝ))}
    {cs : List ((Nat × Nat) × ℝ)} (h : (l.mapM f).map List.flatten = some cs) (d : Nat → V3 ℝ) (S : Nat → Prop) :
    (∀ a ∈ l, ∃ c, f a = some c) ∧
    pair cs d = (l.map fun a => pair ((f a).getD []) d).sum ∧
    ((∀ a ∈ l, ∀ c, f a = some c → ∀ x ∈ c, S x.1.1 ∧ x.1.2 < 3) → ∀ x ∈ cs, S x.1.1 ∧ x.1.2 < 3) := by
  induction l generalizing cs with
  | nil =>
    simp at h
    subst h
    exact ⟨by simp, rfl, by simp⟩
  | cons a l ih =>
    rw [List.mapM_cons] at h
    cases ha : f a with
    | none => simp [ha] at h
    | some c =>
      cases hl : l.mapM f with
      | none => simp [ha, hl] at h
      | some r =>
        simp only [ha, hl, Option.bind_eq_bind, Option.bind_some, Option.pure_def, Option.map_some, Option.some.injEq] at h
        subst h
        obtain ⟨h1, h2, h3⟩ := ih (cs := r.flatten) (by rw [hl]; rfl)
        refine ⟨?_, ?_, ?_⟩
        · intro b hb
          rcases List.mem_cons.mp hb with rfl | hb
          · exact ⟨c, ha⟩
          · exact h1 b hb
        · rw [List.map_cons, List.sum_cons, ← h2, ha, List.flatten_cons]
          unfold pair
          rw [List.map_append, List.sum_append]
          rfl
        · intro hS x hx
          rw [List.flatten_cons, List.mem_append] at hx
          rcases hx with hx | hx
          · exact hS a (by simp) c ha x hx
          · exact h3 (fun b hb => hS b (by simp [hb])) x hx

theorem pts_get {pts : List (V3 ℝ)} {i : Nat} {v : V3 ℝ} (h : pts[i]? = some v) : pts.getD i 0 = v ∧ i < pts.length := by
  obtain ⟨hi, e⟩ := List.getElem?_eq_some_iff.mp h
  exact ⟨by rw [List.getD_eq_getElem?_getD, h]; rfl, hi⟩

/-- Points moved along a direction. -/
def moved (pts : List (V3 ℝ)) (d : Nat → V3 ℝ) (t : ℝ) (i : Nat) : V3 ℝ := line3 (pts.getD i 0) (d i) t

theorem cell_deriv {pts : List (V3 ℝ)} {xf yf : ℝ} {c : GCell ℝ} (hc : 0 ≤ c.idx) {cs}
    (h : cellContrib pts xf yf c = some cs) (d : Nat → V3 ℝ) :
    HasDerivAt (fun t => cellLoss (moved pts d t) xf yf c) (pair cs d) 0 := by
  unfold cellContrib at h
  cases hv : pts[c.idx.toNat]? with
  | none => simp [hv] at h
  | some v =>
    simp only [hv, Option.bind_eq_bind, Option.bind_some, Option.some.injEq] at h
    subst h
    have e := (pts_get hv).1
    refine hd_congr (hasDerivAt_quad
      (c.gz * v.z + c.gd * ((v.x - xf) ^ 2 + (v.y - yf) ^ 2))
      (c.gz * (d c.idx.toNat).z + c.gd * (2 * (v.x - xf) * (d c.idx.toNat).x + 2 * (v.y - yf) * (d c.idx.toNat).y))
      (c.gd * ((d c.idx.toNat).x ^ 2 + (d c.idx.toNat).y ^ 2))) ?_ ?_
    · intro t
      simp only [cellLoss, if_neg (not_lt.mpr hc), moved, e, line3, V3.add_x, V3.add_y, V3.add_z, V3.smul_x, V3.smul_y,
        V3.smul_z]
      ring
    · simp only [pair, coord, List.map_cons, List.map_nil, List.sum_cons, List.sum_nil]
      ring

/-- `-1` entries come after all others, as the forward pass produces them. -/
def Tail (cells : List (GCell ℝ)) : Prop := ∀ c ∈ cells.dropWhile fun c => decide (0 ≤ c.idx), c.idx < 0

theorem pixel_deriv {pts : List (V3 ℝ)} {xf yf : ℝ} {cells : List (GCell ℝ)} (ht : Tail cells) {cs}
    (h : pixelContrib pts xf yf cells = some cs) (d : Nat → V3 ℝ) :
    HasDerivAt (fun t => (cells.map (cellLoss (moved pts d t) xf yf)).sum) (pair cs d) 0 := by
  obtain ⟨h1, h2, _⟩ := mapM_flatten_pair h d (fun _ => True)
  have hsplit : ∀ t, (cells.map (cellLoss (moved pts d t) xf yf)).sum
      = ((cells.takeWhile fun c => decide (0 ≤ c.idx)).map fun c => cellLoss (moved pts d t) xf yf c).sum := by
    intro t
    conv_lhs => rw [← List.takeWhile_append_dropWhile (p := fun c : GCell ℝ => decide (0 ≤ c.idx)) (l := cells)]
    rw [List.map_append, List.sum_append]
    have : ((cells.dropWhile fun c => decide (0 ≤ c.idx)).map (cellLoss (moved pts d t) xf yf)).sum = 0 := by
      apply List.sum_eq_zero
      intro x hx
      obtain ⟨c, hc, rfl⟩ := List.mem_map.mp hx
      exact if_pos (ht c hc)
    rw [this, add_zero]
  refine hd_congr (hd_sum (cells.takeWhile fun c => decide (0 ≤ c.idx))
    (f := fun c t => cellLoss (moved pts d t) xf yf c)
    (f' := fun c => pair ((cellContrib pts xf yf c).getD []) d) ?_) hsplit h2
  intro c hc
  obtain ⟨cs', e⟩ := h1 c hc
  rw [e]
  exact cell_deriv (by simpa using List.mem_takeWhile_imp hc) e d

theorem contribs_deriv {pts : List (V3 ℝ)} {N H W : Nat} {data : Nat → Nat → Nat → List (GCell ℝ)}
    (ht : ∀ n < N, ∀ y < H, ∀ x < W, Tail (data n y x)) {cs} (h : contribs pts N H W data = some cs) (d : Nat → V3 ℝ) :
    HasDerivAt (fun t => loss (moved pts d t) N H W data) (pair cs d) 0 := by
  obtain ⟨h1, h2, _⟩ := mapM_flatten_pair h d (fun _ => True)
  refine hd_congr (hd_sum (List.range N) (f' := fun n => pair ((imageContrib pts H W (data n)).getD []) d) ?_)
    (fun _ => rfl) h2
  intro n hn
  obtain ⟨cn, en⟩ := h1 n hn
  rw [en]
  obtain ⟨h3, h4, _⟩ := mapM_flatten_pair en d (fun _ => True)
  refine hd_congr (hd_sum (List.range H) ?_) (fun _ => rfl) h4
  intro y hy
  obtain ⟨cy, ey⟩ := h3 y hy
  rw [ey]
  obtain ⟨h5, h6, _⟩ := mapM_flatten_pair ey d (fun _ => True)
  refine hd_congr (hd_sum (List.range W) ?_) (fun _ => rfl) h6
  intro x hx
  obtain ⟨cx, ex⟩ := h5 x hx
  rw [ex]
  rw [← pixel_centre (List.mem_range.mp hx), ← pixel_centre (List.mem_range.mp hy)]
  exact pixel_deriv (ht n (List.mem_range.mp hn) y (List.mem_range.mp hy) x (List.mem_range.mp hx)) ex d

/-- Indices refer to points. -/
theorem contribs_bound {pts : List (V3 ℝ)} {N H W : Nat} {data : Nat → Nat → Nat → List (GCell ℝ)} {cs}
    (h : contribs pts N H W data = some cs) : ∀ x ∈ cs, x.1.1 < pts.length ∧ x.1.2 < 3 := by
  refine (mapM_flatten_pair h (fun _ => 0) (· < pts.length)).2.2 ?_
  intro n _ cn en
  refine (mapM_flatten_pair en (fun _ => 0) (· < pts.length)).2.2 ?_
  intro y _ cy ey
  refine (mapM_flatten_pair ey (fun _ => 0) (· < pts.length)).2.2 ?_
  intro x _ cx ex
  refine (mapM_flatten_pair ex (fun _ => 0) (· < pts.length)).2.2 ?_
  intro c _ cc ec
  unfold cellContrib at ec
  cases hv : pts[c.idx.toNat]? with
  | none => simp [hv] at ec
  | some v =>
    simp only [hv, Option.bind_eq_bind, Option.bind_some, Option.some.injEq] at ec
    subst ec
    have := (pts_get hv).2
    intro x hx
    simp only [List.mem_cons, List.not_mem_nil, or_false] at hx
    rcases hx with rfl | rfl | rfl <;> exact ⟨this, by norm_num⟩

/-- **Point rasterizer gradient.** For the indices produced by the forward pass, `grad_points` is the gradient of
the pairing of the incoming gradients with depth and squared distance. -/
theorem pointsBackward_deriv {pts : List (V3 ℝ)} {N H W : Nat} {data : Nat → Nat → Nat → List (GCell ℝ)}
    (ht : ∀ n < N, ∀ y < H, ∀ x < W, Tail (data n y x)) {g} (h : pointsBackward pts N H W data = some g)
    (d : Nat → V3 ℝ) :
    HasDerivAt (fun t => loss (moved pts d t) N H W data)
      (∑ pc ∈ Finset.range pts.length ×ˢ Finset.range 3, g pc * coord (d pc.1) pc.2) 0 := by
  unfold pointsBackward at h
  obtain ⟨cs, e, rfl⟩ := Option.map_eq_some_iff.mp h
  have hb := contribs_bound e
  rw [sum_scatterAdd cs _ (fun c hc => by simp [hb c hc]) (fun pc => coord (d pc.1) pc.2)]
  exact contribs_deriv ht e d

/-- The GPU kernel adds the same contributions in some order. -/
theorem pointsBackward_atomic {F : Type} [Field F] [LinearOrder F] [IsStrictOrderedRing F] {pts : List (V3 F)}
    {N H W : Nat} {data : Nat → Nat → Nat → List (GCell F)} {g} (h : pointsBackward pts N H W data = some g)
    {cs cs'} (e : contribs pts N H W data = some cs) (hp : cs'.Perm cs) : scatterAdd cs' = g := by
  unfold pointsBackward at h
  rw [e, Option.map_some, Option.some.injEq] at h
  rw [← h]
  exact scatterAdd_perm hp

example : (pointsBackward (F := ℚ) [⟨1, 2, 3⟩, ⟨1, 1, 1⟩] 1 1 1 (fun _ _ _ => [⟨0, 5, 3⟩, ⟨-1, 7, 7⟩])).map
    (fun g => [g (0, 0), g (0, 1), g (0, 2), g (1, 0)]) = some [6, 12, 5, 0] := by decide +kernel

end P3D.Raster
