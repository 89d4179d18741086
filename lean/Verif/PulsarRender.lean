/-
Pulsar, the sphere renderer: the tracker of the closest spheres (`csrc/pulsar/include/closest_sphere_tracker.device.h`), the blending part of `draw`
(`renderer.draw.device.h:291-331`) and the loop over the spheres of one pixel in `render` (`renderer.render.device.h`).

A sphere is given by its closest possible intersection and, if `draw` reports a hit at the pixel, by what `draw` computes before the blending
(`PulsarDraw` has that part).  Numbers are real.  The loop is that of one pixel; other pixels of the block only decide how long spheres are
loaded, which does not matter to a pixel that is done.  Not modelled: the order in which threads of a GPU block write to the buffer (the order within
a flush does not matter, `finish_perm`), invalid spheres in the list (`create_selector` removes them), 32 bit counters.
-/
import Mathlib.Analysis.SpecialFunctions.Log.Basic
import Mathlib.Analysis.Complex.ExponentialBounds
import Mathlib.Data.List.Sort
import Mathlib.Algebra.BigOperators.Group.List.Basic
import Mathlib.Algebra.Order.BigOperators.Group.List
import Mathlib.Tactic.Linarith
import Mathlib.Tactic.FieldSimp
import Mathlib.Tactic.Ring
import Mathlib.Tactic.NormNum

set_option linter.unusedSectionVars false

namespace P3D.PulsarRender

/-! ### The tracker -/

/-- `ClosestSphereTracker` (closest_sphere_tracker.device.h:128-136): the arrays of ids and depths as functions of the index. -/
structure Tracker where
  hits : Nat
  ids : Nat → Int
  depths : Nat → ℝ

/-- The constructor (lines 27-34); `big` is `MAX_FLOAT`. -/
def Tracker.init (big : ℝ) : Tracker := ⟨0, fun _ => -1, fun _ => big⟩

/-- The search for the position to write to (lines 46-48): `findPos a d k` looks at `k - 1`, …, `0`. -/
noncomputable def findPos (a : Nat → ℝ) (d : ℝ) : Nat → Nat
  | 0 => 0
  | k + 1 => if a k < d then k + 1 else findPos a d k

/-- The loop that moves entries back (lines 56-61): `j = n - 1, …, p + 1`; the counter is `j - p`. -/
def shiftLoop {α : Type} (p : Nat) : Nat → (Nat → α) → Nat → α
  | 0, a => a
  | k + 1, a => shiftLoop p k (Function.update a (p + k + 1) (a (p + k)))

/-- `track` (lines 36-83). -/
noncomputable def Tracker.track (n : Nat) (t : Tracker) (id : Int) (d : ℝ) : Tracker :=
  let p := findPos t.depths d (min t.hits n)
  if p < n then
    { hits := t.hits + 1
      ids := Function.update (shiftLoop p (n - 1 - p) t.ids) p id
      depths := Function.update (shiftLoop p (n - 1 - p) t.depths) p d }
  else { t with hits := t.hits + 1 }

/-- The sequence of hits of a pixel is tracked. -/
noncomputable def trackAll (n : Nat) (big : ℝ) (l : List (Int × ℝ)) : Tracker :=
  l.foldl (fun t x => t.track n x.1 x.2) (Tracker.init big)

/-- The entries written to `forw_info` (renderer.render.device.h:405-410). -/
noncomputable def Tracker.info (n : Nat) (big : ℝ) (t : Tracker) : List (Int × ℝ) :=
  (List.range n).map fun i => (t.ids i, if t.depths i = big then -1 else t.depths i)

/-! ### Blending -/

/-- What `draw` knows about a hit when it blends: `norm_dist_scaled`, `closeness * opacity`, colour, `intersection_depth`, and the id. -/
structure Hit where
  e : ℝ
  w : ℝ
  col : Nat → ℝ
  depth : ℝ
  id : Int

/-- The pixel: `sm_d`, `sm_m`, `result`. -/
structure Pix where
  d : ℝ
  m : ℝ
  res : Nat → ℝ

/-- Initial values (renderer.render.device.h:144-156): `b` is `background_normalization_depth / gamma`. -/
def Pix.init (b : ℝ) (bg : Nat → ℝ) : Pix := ⟨1, b, bg⟩

/-- The blending (renderer.draw.device.h:293-324). -/
noncomputable def blend (s : Pix) (h : Hit) : Pix :=
  let m := max s.m h.e
  let coeff := h.w * Real.exp (h.e - m)
  if s.m = m then ⟨s.d + coeff, m, fun c => coeff * h.col c + s.res c⟩
  else
    let corr := Real.exp (s.m - m)
    ⟨s.d * corr + coeff, m, fun c => coeff * h.col c + s.res c * corr⟩

/-- The final colour (renderer.render.device.h:388-391). -/
noncomputable def Pix.color (eps : ℝ) (s : Pix) (c : Nat) : ℝ := s.res c * (max s.d eps)⁻¹

/-! ### The loop -/

/-- Settings of a render call. -/
structure Cfg where
  gamma : ℝ
  pad : ℝ
  maxHits : Nat
  minDist : ℝ
  maxDist : ℝ
  eps : ℝ
  b : ℝ
  bg : Nat → ℝ

/-- A sphere, as seen from a pixel: whether it meets the area of the block, `closest_possible_intersection`, and the hit. -/
structure Ball where
  inBlock : Bool
  cp : ℝ
  hit : Option Hit

/-- State of a pixel in the loop; `thr` is `none` for the initial `MAX_FLOAT`. -/
structure St where
  pix : Pix
  thr : Option ℝ
  hits : List (Int × ℝ)
  done : Bool

/-- The depth threshold (renderer.draw.device.h:328-331). -/
noncomputable def threshold (c : Cfg) (s : Pix) : ℝ :=
  (1 - (Real.log (s.d + c.eps) + Real.log (c.pad / (1 - c.pad)) + s.m) * c.gamma) * (c.maxDist - c.minDist) + c.minDist

/-- One sphere of a flush (renderer.render.device.h:217-276). -/
noncomputable def drawBall (c : Cfg) (s : St) (b : Ball) : St :=
  match b.hit with
  | none => s
  | some h => { s with pix := blend s.pix h, thr := some (threshold c (blend s.pix h)), hits := s.hits ++ [(h.id, h.depth)] }

/-- `x > depth_threshold`. -/
def above (x : ℝ) : Option ℝ → Prop
  | none => False
  | some t => t < x

open Classical in
/-- A flush (renderer.render.device.h:205-299). -/
noncomputable def flush (c : Cfg) (s : St) (buf : List Ball) : St :=
  if s.done then s
  else
    let s' := buf.foldl (drawBall c) s
    let far := buf.foldl (fun x b => max x b.cp) 0
    { s' with done := decide ((0 < c.pad ∧ above far s'.thr) ∨ c.maxHits ≤ s'.hits.length) }

/-- The loading loop (renderer.render.device.h:183-304): each group is what the threads of the block load in one round (one sphere on the
host), `load` is `RENDER_BUFFER_LOAD_THRESH`; after the loop the rest of the buffer is drawn (lines 313-377). -/
noncomputable def loop (c : Cfg) (load : Nat) : List (List Ball) → List Ball → St → St
  | [], buf, s => if s.done then s else buf.foldl (drawBall c) s
  | g :: gs, buf, s =>
    let buf := buf ++ g.filter (·.inBlock)
    if load < buf.length then loop c load gs [] (flush c s buf) else loop c load gs buf s

/-- Start of a pixel inside the film. -/
def St.init (c : Cfg) : St := ⟨Pix.init c.b c.bg, none, [], false⟩

/-- A pixel. -/
noncomputable def render (c : Cfg) (load : Nat) (gs : List (List Ball)) : St := loop c load gs [] (St.init c)

/-- Number of hits (mode 1, renderer.render.device.h:379-387). -/
def St.nHits (s : St) : Nat := s.hits.length

/-! ### Tracker: proofs -/

theorem shiftLoop_spec {α : Type} (p k : Nat) (a : Nat → α) (j : Nat) :
    shiftLoop p k a j = if p < j ∧ j ≤ p + k then a (j - 1) else a j := by
  induction k generalizing a with
  | zero => rw [shiftLoop, if_neg (by omega)]
  | succ k ih =>
    rw [shiftLoop, ih]
    by_cases h1 : p < j ∧ j ≤ p + k
    · rw [if_pos h1, if_pos (by omega), Function.update_of_ne (by omega)]
    · rw [if_neg h1]
      by_cases h2 : j = p + k + 1
      · subst h2
        rw [if_pos (by omega), Function.update_self, show p + k + 1 - 1 = p + k by omega]
      · rw [if_neg (by omega), Function.update_of_ne h2]

/-- The entries that hold a sphere. -/
def Tracker.kept (n : Nat) (t : Tracker) : List (Int × ℝ) := (List.range (min t.hits n)).map fun i => (t.ids i, t.depths i)

/-- Order by depth. -/
def le (a b : Int × ℝ) : Prop := a.2 ≤ b.2

noncomputable instance : DecidableRel le := fun a b => inferInstanceAs (Decidable (a.2 ≤ b.2))
instance : Std.Total le := ⟨fun a b => le_total a.2 b.2⟩
instance : IsTrans (Int × ℝ) le := ⟨fun _ _ _ h1 h2 => le_trans (α := ℝ) h1 h2⟩

theorem findPos_spec (a : Nat → ℝ) (d : ℝ) (k : Nat) (hs : ∀ i j, i ≤ j → j < k → a i ≤ a j) :
    findPos a d k ≤ k ∧ (∀ i, i < findPos a d k → a i < d) ∧ ∀ i, findPos a d k ≤ i → i < k → d ≤ a i := by
  induction k with
  | zero => exact ⟨le_refl _, fun i hi => by simp [findPos] at hi, fun i _ h => absurd h (by omega)⟩
  | succ k ih =>
    rw [findPos]
    split
    · rename_i h
      exact ⟨le_refl _, fun i hi => lt_of_le_of_lt (hs i k (by omega) (by omega)) h, fun i h1 h2 => absurd h1 (by omega)⟩
    · rename_i h
      obtain ⟨h1, h2, h3⟩ := ih fun i j hij hj => hs i j hij (by omega)
      refine ⟨by omega, h2, fun i hi hk => ?_⟩
      by_cases hik : i = k
      · subst hik
        exact not_lt.mp h
      · exact h3 i hi (by omega)

theorem orderedInsert_at (x : Int × ℝ) (l : List (Int × ℝ)) (p : Nat) (hp : p ≤ l.length) (h1 : ∀ i (h : i < l.length), i < p → l[i].2 < x.2)
    (h2 : ∀ (h : p < l.length), x.2 ≤ l[p].2) : l.orderedInsert le x = l.take p ++ x :: l.drop p := by
  induction l generalizing p with
  | nil => simp
  | cons y l ih =>
    cases p with
    | zero =>
      have : le x y := h2 (by simp)
      simp [List.orderedInsert_cons, this]
    | succ p =>
      have : ¬ le x y := not_le.mpr (h1 0 (by simp) (by omega))
      simp only [List.orderedInsert_cons, this, if_false, List.take_succ_cons, List.drop_succ_cons, List.cons_append, List.cons.injEq, true_and]
      refine ih p (by simpa using hp) (fun i h hi => ?_) (fun h => ?_)
      · exact h1 (i + 1) (by simpa using h) (by omega)
      · exact h2 (by simpa using h)

theorem kept_length (n : Nat) (t : Tracker) : (t.kept n).length = min t.hits n := by simp [Tracker.kept]

theorem kept_get (n : Nat) (t : Tracker) (i : Nat) (h : i < (t.kept n).length) : (t.kept n)[i] = (t.ids i, t.depths i) := by
  simp [Tracker.kept]

theorem kept_track (n : Nat) (t : Tracker) (id : Int) (d : ℝ) (hs : (t.kept n).Pairwise le) :
    (t.track n id d).kept n = ((t.kept n).orderedInsert le (id, d)).take n := by
  have hlen := kept_length n t
  have hget := kept_get n t
  have hmono : ∀ i j, i ≤ j → j < min t.hits n → t.depths i ≤ t.depths j := by
    intro i j hij hj
    rcases Nat.lt_or_eq_of_le hij with h | h
    · have := List.pairwise_iff_getElem.mp hs i j (by omega) (by omega) h
      simpa [hget, le] using this
    · rw [h]
  obtain ⟨hp1, hp2, hp3⟩ := findPos_spec t.depths d (min t.hits n) hmono
  generalize hp : findPos t.depths d (min t.hits n) = p at *
  rw [orderedInsert_at (id, d) (t.kept n) p (by omega) (fun i h hi => by rw [hget]; exact hp2 i hi) (fun h => by rw [hget]; exact hp3 p le_rfl (by omega))]
  unfold Tracker.track
  dsimp only
  rw [hp]
  by_cases hpn : p < n
  · rw [if_pos hpn]
    refine List.ext_getElem ?_ ?_
    · simp [Tracker.kept]
      omega
    · intro i h1 h2
      rw [kept_length] at h1
      rw [kept_get, List.getElem_take]
      dsimp only at h1 ⊢
      rcases lt_trichotomy i p with h | h | h
      · rw [List.getElem_append_left (by simp; omega), List.getElem_take, hget, Function.update_of_ne (by omega), Function.update_of_ne (by omega),
          shiftLoop_spec, shiftLoop_spec, if_neg (by omega), if_neg (by omega)]
      · subst h
        rw [List.getElem_append_right (by simp)]
        simp [hlen, Nat.min_eq_left hp1]
      · rw [List.getElem_append_right (by simp; omega), List.getElem_cons]
        rw [dif_neg (by simp; omega), List.getElem_drop, hget, Function.update_of_ne (by omega), Function.update_of_ne (by omega),
          shiftLoop_spec, shiftLoop_spec, if_pos (by omega), if_pos (by omega)]
        have : p + (i - (List.take p (t.kept n)).length - 1) = i - 1 := by simp [hlen]; omega
        rw [this]
  · rw [if_neg hpn]
    have hpe : p = n := by omega
    have h1 : (t.kept n).length = n := by omega
    subst hpe
    rw [List.take_append_of_le_length (by simp [h1]), List.take_take, min_self, List.take_of_length_le (by omega)]
    simp only [Tracker.kept]
    rw [Nat.min_eq_right (by omega), Nat.min_eq_right (by omega)]

theorem take_orderedInsert (n : Nat) (x : Int × ℝ) (l : List (Int × ℝ)) :
    ((l.take n).orderedInsert le x).take n = (l.orderedInsert le x).take n := by
  induction l generalizing n with
  | nil => simp
  | cons y l ih =>
    cases n with
    | zero => simp
    | succ n =>
      simp only [List.take_succ_cons, List.orderedInsert_cons]
      by_cases h : le x y
      · simp [h]
        cases n with
        | zero => simp
        | succ n => simp [List.take_take]
      · simp [h, ih]

theorem trackAll_aux (n : Nat) (big : ℝ) (l : List (Int × ℝ)) : (trackAll n big l).hits = l.length ∧
    (trackAll n big l).kept n = (l.reverse.insertionSort le).take n := by
  induction l using List.reverseRecOn with
  | nil => exact ⟨rfl, by simp [trackAll, Tracker.init, Tracker.kept]⟩
  | append_singleton l x ih =>
    have e : trackAll n big (l ++ [x]) = (trackAll n big l).track n x.1 x.2 := by simp [trackAll]
    rw [e]
    constructor
    · have : ((trackAll n big l).track n x.1 x.2).hits = (trackAll n big l).hits + 1 := by
        unfold Tracker.track
        dsimp only
        split <;> rfl
      rw [this, ih.1]
      simp
    · have hs : ((trackAll n big l).kept n).Pairwise le := by
        rw [ih.2]
        exact (List.pairwise_insertionSort le l.reverse).sublist (List.take_sublist _ _)
      rw [kept_track _ _ _ _ hs, ih.2, take_orderedInsert]
      simp

/-- The tracker holds the `n_track` closest of all tracked hits in order of depth; of equal depths the later hit comes first. -/
theorem tracker_sorted (n : Nat) (big : ℝ) (l : List (Int × ℝ)) : (trackAll n big l).hits = l.length ∧
    (trackAll n big l).kept n = (l.reverse.insertionSort le).take n := trackAll_aux n big l

/-- In other words: as many hits as fit, in ascending order, none of the others closer. -/
theorem tracker_closest (n : Nat) (big : ℝ) (l : List (Int × ℝ)) : ((trackAll n big l).kept n).length = min l.length n ∧
    ((trackAll n big l).kept n).Pairwise (fun a b => a.2 ≤ b.2) ∧
    ∃ rest, l.Perm ((trackAll n big l).kept n ++ rest) ∧ ∀ a ∈ (trackAll n big l).kept n, ∀ b ∈ rest, a.2 ≤ b.2 := by
  obtain ⟨h1, h2⟩ := trackAll_aux n big l
  have hs := List.pairwise_insertionSort le l.reverse
  refine ⟨by rw [kept_length, h1], ?_, (l.reverse.insertionSort le).drop n, ?_, ?_⟩
  · rw [h2]
    exact hs.sublist (List.take_sublist _ _)
  · rw [h2, List.take_append_drop]
    exact (l.reverse_perm.symm.trans (List.perm_insertionSort le l.reverse).symm)
  · rw [← List.take_append_drop n (l.reverse.insertionSort le)] at hs
    rw [h2]
    exact (List.pairwise_append.mp hs).2.2

theorem free_track (n : Nat) (big : ℝ) (t : Tracker) (id : Int) (d : ℝ) (h : ∀ i, min t.hits n ≤ i → t.ids i = -1 ∧ t.depths i = big) (i : Nat)
    (hi : min (t.hits + 1) n ≤ i) (hs : findPos t.depths d (min t.hits n) ≤ min t.hits n) : (t.track n id d).ids i = -1 ∧ (t.track n id d).depths i = big := by
  unfold Tracker.track
  dsimp only
  generalize findPos t.depths d (min t.hits n) = p at *
  split
  · rename_i hp
    dsimp only
    rw [Function.update_of_ne (by omega), Function.update_of_ne (by omega), shiftLoop_spec, shiftLoop_spec]
    by_cases hc : p < i ∧ i ≤ p + (n - 1 - p)
    · rw [if_pos hc, if_pos hc]
      exact h _ (by omega)
    · rw [if_neg hc, if_neg hc]
      exact h _ (by omega)
  · exact h i (by omega)

theorem findPos_le (a : Nat → ℝ) (d : ℝ) (k : Nat) : findPos a d k ≤ k := by
  induction k with
  | zero => exact le_refl _
  | succ k ih =>
    rw [findPos]
    split <;> omega

/-- What is written for the gradient pass: the closest hits, and (-1, -1) where there are fewer hits than slots. -/
theorem info_spec (n : Nat) (big : ℝ) (l : List (Int × ℝ)) (hb : ∀ x ∈ l, x.2 < big) :
    (trackAll n big l).info n big = (l.reverse.insertionSort le).take n ++ List.replicate (n - l.length) (-1, -1) := by
  obtain ⟨h1, h2⟩ := trackAll_aux n big l
  have hfree : ∀ i, min (trackAll n big l).hits n ≤ i → (trackAll n big l).ids i = -1 ∧ (trackAll n big l).depths i = big := by
    clear h1 h2 hb
    induction l using List.reverseRecOn with
    | nil => exact fun i _ => ⟨rfl, rfl⟩
    | append_singleton l x ih =>
      have e : trackAll n big (l ++ [x]) = (trackAll n big l).track n x.1 x.2 := by simp [trackAll]
      intro i hi
      rw [e] at hi ⊢
      have : ((trackAll n big l).track n x.1 x.2).hits = (trackAll n big l).hits + 1 := by
        unfold Tracker.track
        dsimp only
        split <;> rfl
      rw [this] at hi
      exact free_track n big _ _ _ ih i hi (findPos_le _ _ _)
  have hk : ∀ i (h : i < ((trackAll n big l).kept n).length), ((trackAll n big l).kept n)[i].2 ≠ big := by
    intro i h
    have : ((trackAll n big l).kept n)[i] ∈ (l.reverse.insertionSort le).take n := by
      rw [← h2]
      exact List.getElem_mem h
    have := List.mem_of_mem_take this
    rw [List.mem_insertionSort, List.mem_reverse] at this
    exact (hb _ this).ne
  rw [← h2]
  refine List.ext_getElem ?_ ?_
  · simp [Tracker.info, Tracker.kept, h1]
    omega
  · intro i hi hi'
    simp only [Tracker.info, List.getElem_map, List.getElem_range]
    by_cases h : i < ((trackAll n big l).kept n).length
    · rw [List.getElem_append_left h, kept_get]
      have := hk i h
      rw [kept_get] at this
      rw [if_neg this]
    · rw [List.getElem_append_right (by omega)]
      rw [kept_length] at h
      obtain ⟨e1, e2⟩ := hfree i (by omega)
      simp [e1, e2]

/-! ### Blending: proofs -/

theorem blend_m (s : Pix) (h : Hit) : (blend s h).m = max s.m h.e := by
  unfold blend
  dsimp only
  split <;> rfl

theorem exp_shift (a b : ℝ) : Real.exp (a - b) * Real.exp b = Real.exp a := by rw [← Real.exp_add]; congr 1; ring

/-- One step, independently of the shift `m`. -/
theorem blend_spec (s : Pix) (h : Hit) : (blend s h).d * Real.exp (blend s h).m = s.d * Real.exp s.m + h.w * Real.exp h.e ∧
    ∀ c, (blend s h).res c * Real.exp (blend s h).m = s.res c * Real.exp s.m + h.w * Real.exp h.e * h.col c := by
  have h1 := exp_shift h.e (max s.m h.e)
  have h2 := exp_shift s.m (max s.m h.e)
  unfold blend
  dsimp only
  generalize max s.m h.e = m at *
  split
  · rename_i hm
    subst hm
    refine ⟨?_, fun c => ?_⟩ <;> dsimp only
    · linear_combination h.w * h1
    · linear_combination h.w * h.col c * h1
  · refine ⟨?_, fun c => ?_⟩ <;> dsimp only
    · linear_combination h.w * h1 + s.d * h2
    · linear_combination h.w * h.col c * h1 + s.res c * h2

/-- All hits. -/
noncomputable def finish (s : Pix) (l : List Hit) : Pix := l.foldl blend s

/-- The sum of the weights, and of the weighted colours. -/
noncomputable def weight (l : List Hit) : ℝ := (l.map fun h => h.w * Real.exp h.e).sum
noncomputable def weighted (l : List Hit) (c : Nat) : ℝ := (l.map fun h => h.w * Real.exp h.e * h.col c).sum

theorem finish_spec (s : Pix) (l : List Hit) : (finish s l).m = l.foldl (fun x h => max x h.e) s.m ∧
    (finish s l).d * Real.exp (finish s l).m = s.d * Real.exp s.m + weight l ∧
    ∀ c, (finish s l).res c * Real.exp (finish s l).m = s.res c * Real.exp s.m + weighted l c := by
  induction l generalizing s with
  | nil => simp [finish, weight, weighted]
  | cons h l ih =>
    obtain ⟨i1, i2, i3⟩ := ih (blend s h)
    obtain ⟨b1, b2⟩ := blend_spec s h
    have e : finish s (h :: l) = finish (blend s h) l := rfl
    rw [e]
    refine ⟨by rw [i1, blend_m]; rfl, ?_, fun c => ?_⟩
    · rw [i2, b1]
      simp only [weight, List.map_cons, List.sum_cons]
      ring
    · rw [i3, b2]
      simp only [weighted, List.map_cons, List.sum_cons]
      ring

/-- The stable softmax is exact: without the lower bound on the denominator the colour is the average of background and hits with weights
`exp b` and `w exp e`. -/
theorem color_softmax (eps b : ℝ) (bg : Nat → ℝ) (l : List Hit) (h : eps ≤ (finish (Pix.init b bg) l).d) (hp : 0 < (finish (Pix.init b bg) l).d) (c : Nat) :
    (finish (Pix.init b bg) l).color eps c = (Real.exp b * bg c + weighted l c) / (Real.exp b + weight l) := by
  obtain ⟨-, h2, h3⟩ := finish_spec (Pix.init b bg) l
  have h3 := h3 c
  simp only [Pix.init, one_mul] at h2 h3 h hp
  simp only [Pix.color, Pix.init]
  rw [max_eq_left h]
  have hE := Real.exp_pos (finish ⟨1, b, bg⟩ l).m
  rw [mul_comm (Real.exp b), ← h2, ← h3]
  field_simp

theorem foldl_max_ge (l : List Hit) (x : ℝ) : x ≤ l.foldl (fun x h => max x h.e) x ∧ ∀ h ∈ l, h.e ≤ l.foldl (fun x h => max x h.e) x := by
  induction l generalizing x with
  | nil => simp
  | cons a l ih =>
    obtain ⟨h1, h2⟩ := ih (max x a.e)
    refine ⟨le_trans (le_max_left _ _) h1, fun h hm => ?_⟩
    rcases List.mem_cons.mp hm with rfl | hm
    · exact le_trans (le_max_right _ _) h1
    · exact h2 h hm

theorem foldl_max_mem (l : List Hit) (x : ℝ) : l.foldl (fun x h => max x h.e) x = x ∨ ∃ h ∈ l, l.foldl (fun x h => max x h.e) x = h.e := by
  induction l generalizing x with
  | nil => simp
  | cons a l ih =>
    rcases ih (max x a.e) with h | ⟨h, hm, he⟩
    · rcases max_choice x a.e with hc | hc
      · left
        simpa [hc] using h
      · right
        exact ⟨a, by simp, by simpa [hc] using h⟩
    · exact Or.inr ⟨h, by simp [hm], he⟩

theorem weight_nonneg (l : List Hit) (hw : ∀ h ∈ l, 0 ≤ h.w) : 0 ≤ weight l := by
  apply List.sum_nonneg
  intro x hx
  obtain ⟨h, hm, rfl⟩ := List.mem_map.mp hx
  exact mul_nonneg (hw h hm) (Real.exp_pos _).le

theorem weight_ge (l : List Hit) (hw : ∀ h ∈ l, 0 ≤ h.w) (h : Hit) (hm : h ∈ l) : h.w * Real.exp h.e ≤ weight l := by
  refine List.single_le_sum ?_ _ (List.mem_map.mpr ⟨h, hm, rfl⟩)
  intro x hx
  obtain ⟨h, hm, rfl⟩ := List.mem_map.mp hx
  exact mul_nonneg (hw h hm) (Real.exp_pos _).le

/-- The denominator is positive, at least one if no hit is in front of the background depth, and never less than the weight of the foremost hit. -/
theorem denom_lower (b : ℝ) (bg : Nat → ℝ) (l : List Hit) (hw : ∀ h ∈ l, 0 ≤ h.w) : 0 < (finish (Pix.init b bg) l).d ∧
    ((∀ h ∈ l, h.e ≤ b) → 1 ≤ (finish (Pix.init b bg) l).d) ∧
    ∀ h ∈ l, (∀ h' ∈ l, h'.e ≤ h.e) → b ≤ h.e → h.w ≤ (finish (Pix.init b bg) l).d := by
  obtain ⟨h1, h2, -⟩ := finish_spec (Pix.init b bg) l
  have hn := weight_nonneg l hw
  have hE := Real.exp_pos (finish (Pix.init b bg) l).m
  simp only [Pix.init, one_mul] at h1 h2 hE ⊢
  have hpos : 0 < (finish ⟨1, b, bg⟩ l).d := by
    by_contra hc
    have := mul_nonpos_of_nonpos_of_nonneg (not_lt.mp hc) hE.le
    have := Real.exp_pos b
    linarith
  refine ⟨hpos, fun hall => ?_, fun h hm hmax hb => ?_⟩
  · have : (finish ⟨1, b, bg⟩ l).m = b := by
      rw [h1]
      rcases foldl_max_mem l b with h | ⟨h, hm, he⟩
      · exact h
      · exact le_antisymm (by rw [he]; exact hall h hm) (foldl_max_ge l b).1
    rw [this] at h2 hE
    by_contra hc
    have := mul_lt_mul_of_pos_right (not_le.mp hc) hE
    linarith
  · have : (finish ⟨1, b, bg⟩ l).m = h.e := by
      rw [h1]
      refine le_antisymm ?_ ((foldl_max_ge l b).2 h hm)
      rcases foldl_max_mem l b with h' | ⟨h', hm', he⟩
      · rw [h']
        exact hb
      · rw [he]
        exact hmax h' hm'
    rw [this] at h2 hE
    have hg := weight_ge l hw h hm
    have := Real.exp_pos b
    by_contra hc
    have := mul_lt_mul_of_pos_right (not_le.mp hc) hE
    linarith

theorem weighted_between (l : List Hit) (hw : ∀ h ∈ l, 0 ≤ h.w) (c : Nat) (lo hi : ℝ) (hc : ∀ h ∈ l, lo ≤ h.col c ∧ h.col c ≤ hi) :
    lo * weight l ≤ weighted l c ∧ weighted l c ≤ hi * weight l := by
  induction l with
  | nil => simp [weight, weighted]
  | cons a l ih =>
    obtain ⟨i1, i2⟩ := ih (fun h hm => hw h (List.mem_cons_of_mem _ hm)) fun h hm => hc h (List.mem_cons_of_mem _ hm)
    obtain ⟨c1, c2⟩ := hc a List.mem_cons_self
    have hwa := mul_nonneg (hw a List.mem_cons_self) (Real.exp_pos a.e).le
    have e1 : weight (a :: l) = a.w * Real.exp a.e + weight l := by simp [weight]
    have e2 : weighted (a :: l) c = a.w * Real.exp a.e * a.col c + weighted l c := by simp [weighted]
    rw [e1, e2]
    have := mul_le_mul_of_nonneg_left c1 hwa
    have := mul_le_mul_of_nonneg_left c2 hwa
    constructor <;> nlinarith

/-- A channel stays between the bounds of background and colours. -/
theorem color_between (eps b : ℝ) (bg : Nat → ℝ) (l : List Hit) (hw : ∀ h ∈ l, 0 ≤ h.w) (hd : eps ≤ (finish (Pix.init b bg) l).d) (c : Nat) (lo hi : ℝ)
    (hb : lo ≤ bg c ∧ bg c ≤ hi) (hc : ∀ h ∈ l, lo ≤ h.col c ∧ h.col c ≤ hi) :
    lo ≤ (finish (Pix.init b bg) l).color eps c ∧ (finish (Pix.init b bg) l).color eps c ≤ hi := by
  rw [color_softmax eps b bg l hd (denom_lower b bg l hw).1]
  have hn := weight_nonneg l hw
  have hE := Real.exp_pos b
  obtain ⟨i1, i2⟩ := weighted_between l hw c lo hi hc
  have := mul_le_mul_of_nonneg_left hb.1 hE.le
  have := mul_le_mul_of_nonneg_left hb.2 hE.le
  constructor
  · rw [le_div_iff₀ (by linarith)]
    linarith
  · rw [div_le_iff₀ (by linarith)]
    linarith

/-- The order of the hits does not matter. -/
theorem finish_perm (s : Pix) (l l' : List Hit) (h : l.Perm l') : finish s l = finish s l' := by
  obtain ⟨a1, a2, a3⟩ := finish_spec s l
  obtain ⟨b1, b2, b3⟩ := finish_spec s l'
  have hm : (finish s l).m = (finish s l').m := by
    rw [a1, b1]
    refine h.foldl_eq' (fun x _ y _ z => ?_) _
    exact max_right_comm _ _ _
  have hw : weight l = weight l' := (h.map _).sum_eq
  have hww : ∀ c, weighted l c = weighted l' c := fun c => (h.map _).sum_eq
  have hE := (Real.exp_pos (finish s l').m).ne'
  have hd : (finish s l).d = (finish s l').d := by
    rw [hm] at a2
    exact mul_right_cancel₀ hE (by rw [a2, b2, hw])
  have hr : (finish s l).res = (finish s l').res := by
    funext c
    have a3 := a3 c
    rw [hm] at a3
    exact mul_right_cancel₀ hE (by rw [a3, b3, hww])
  generalize finish s l = p at *
  generalize finish s l' = q at *
  cases p
  cases q
  simp only at hm hd hr
  rw [hm, hd, hr]

/-- A hit of hardly any weight in front of everything else can turn a pixel black: its exponent becomes the reference `m`, the denominator then
falls below `eps`, and the lower bound on the denominator no longer divides the weights out.  White background, a white hit of weight 0 (a ray that
just touches the sphere) with `e = 20`; the colour is below 1/100 instead of 1. -/
theorem color_clamped : (finish (Pix.init 0 fun _ => 1) [⟨20, 0, fun _ => 1, 0, 0⟩]).color (1 / 1000000) 0 < 1 / 100 ∧
    (Real.exp 0 * 1 + weighted [⟨20, 0, fun _ => 1, 0, 0⟩] 0) / (Real.exp 0 + weight [⟨20, 0, fun _ => 1, 0, 0⟩]) = 1 := by
  constructor
  · have hs : finish (Pix.init 0 fun _ => 1) [⟨20, 0, fun _ => 1, 0, 0⟩] = ⟨Real.exp (-20), 20, fun _ => Real.exp (-20)⟩ := by
      simp [finish, blend, Pix.init]
    rw [hs]
    have h3 : (2.7 : ℝ) ≤ Real.exp 1 := by
      have := Real.exp_one_gt_d9
      linarith
    have h20 : Real.exp (-20) ≤ 1 / 200000000 := by
      rw [Real.exp_neg, show (20 : ℝ) = ((20 : ℕ) : ℝ) * 1 by norm_num, Real.exp_nat_mul, inv_eq_one_div]
      apply one_div_le_one_div_of_le (by norm_num)
      calc (200000000 : ℝ) ≤ 2.7 ^ 20 := by norm_num
        _ ≤ Real.exp 1 ^ 20 := pow_le_pow_left₀ (by norm_num) h3 20
    simp only [Pix.color]
    rw [max_eq_right (by linarith)]
    rw [show ((1 : ℝ) / 1000000)⁻¹ = 1000000 by norm_num]
    linarith
  · simp [weight, weighted]

/-! ### The loop: proofs -/

/-- Everything in a list is drawn. -/
noncomputable def draws (c : Cfg) (l : List Ball) : St := l.foldl (drawBall c) (St.init c)

/-- The hits in a list. -/
def hitsOf (l : List Ball) : List Hit := l.filterMap (·.hit)

theorem drawBall_done (c : Cfg) (s : St) (b : Ball) : (drawBall c s b).done = s.done := by
  unfold drawBall
  split <;> rfl

theorem foldl_done (c : Cfg) (l : List Ball) (s : St) : (l.foldl (drawBall c) s).done = s.done := by
  induction l generalizing s with
  | nil => rfl
  | cons b l ih => rw [List.foldl_cons, ih, drawBall_done]

theorem draws_aux (c : Cfg) (l : List Ball) (s : St) : (l.foldl (drawBall c) s).pix = finish s.pix (hitsOf l) ∧
    (l.foldl (drawBall c) s).hits = s.hits ++ (hitsOf l).map (fun h => (h.id, h.depth)) ∧
    (l.foldl (drawBall c) s).thr = if hitsOf l = [] then s.thr else some (threshold c (finish s.pix (hitsOf l))) := by
  induction l generalizing s with
  | nil => simp [hitsOf, finish]
  | cons b l ih =>
    obtain ⟨h1, h2, h3⟩ := ih (drawBall c s b)
    rw [List.foldl_cons, h1, h2, h3]
    rcases hb : b.hit with _ | h
    · have e : drawBall c s b = s := by simp [drawBall, hb]
      have e2 : hitsOf (b :: l) = hitsOf l := by simp [hitsOf, hb]
      rw [e, e2]
      exact ⟨rfl, rfl, rfl⟩
    · have e : drawBall c s b = { s with pix := blend s.pix h, thr := some (threshold c (blend s.pix h)), hits := s.hits ++ [(h.id, h.depth)] } := by
        simp [drawBall, hb]
      have e2 : hitsOf (b :: l) = h :: hitsOf l := by simp [hitsOf, hb]
      rw [e, e2]
      refine ⟨rfl, by simp, ?_⟩
      simp only [reduceCtorEq, if_false]
      split
      · rename_i hn
        rw [hn]
        rfl
      · rfl

/-- Drawing a list of spheres: blending, tracking and the last threshold. -/
theorem draws_spec (c : Cfg) (l : List Ball) : (draws c l).pix = finish (Pix.init c.b c.bg) (hitsOf l) ∧
    (draws c l).hits = (hitsOf l).map (fun h => (h.id, h.depth)) ∧ (draws c l).done = false ∧
    (draws c l).thr = if hitsOf l = [] then none else some (threshold c (finish (Pix.init c.b c.bg) (hitsOf l))) := by
  obtain ⟨h1, h2, h3⟩ := draws_aux c l (St.init c)
  exact ⟨h1, h2, foldl_done c l _, h3⟩

theorem loop_done (c : Cfg) (load : Nat) (gs : List (List Ball)) (buf : List Ball) (s : St) (h : s.done = true) : loop c load gs buf s = s := by
  induction gs generalizing buf with
  | nil => simp [loop, h]
  | cons g gs ih =>
    rw [loop]
    have hf : ∀ b, flush c s b = s := fun b => by simp [flush, h]
    simp only [hf, ih, ite_self]

theorem far_le (l : List Ball) (x t : ℝ) (h : t < l.foldl (fun x b => max x b.cp) x) : t < x ∨ ∃ b ∈ l, t < b.cp := by
  induction l generalizing x with
  | nil => exact Or.inl h
  | cons a l ih =>
    rcases ih (max x a.cp) h with h | ⟨b, hb, h⟩
    · rcases lt_max_iff.mp h with h | h
      · exact Or.inl h
      · exact Or.inr ⟨a, by simp, h⟩
    · exact Or.inr ⟨b, by simp [hb], h⟩

/-- Spheres of a block, in order of loading. -/
def blockBalls (gs : List (List Ball)) : List Ball := gs.flatten.filter (·.inBlock)

theorem loop_spec (c : Cfg) (load : Nat) (gs : List (List Ball)) (buf P : List Ball) (hs : (P ++ buf ++ blockBalls gs).Pairwise (fun a b => a.cp ≤ b.cp))
    (h0 : ∀ b ∈ buf ++ blockBalls gs, 0 ≤ b.cp) :
    ∃ k, (loop c load gs buf (draws c P)).pix = (draws c ((P ++ buf ++ blockBalls gs).take k)).pix ∧
      (loop c load gs buf (draws c P)).hits = (draws c ((P ++ buf ++ blockBalls gs).take k)).hits ∧
      ((P ++ buf ++ blockBalls gs).length ≤ k ∨ c.maxHits ≤ (draws c ((P ++ buf ++ blockBalls gs).take k)).hits.length ∨
        0 < c.pad ∧ ∀ b ∈ (P ++ buf ++ blockBalls gs).drop k, above b.cp (draws c ((P ++ buf ++ blockBalls gs).take k)).thr) := by
  induction gs generalizing buf P with
  | nil =>
    refine ⟨(P ++ buf).length, ?_⟩
    have hd : (draws c P).done = false := (draws_spec c P).2.2.1
    have e : loop c load [] buf (draws c P) = draws c (P ++ buf) := by
      rw [loop, hd]
      simp [draws]
    have eb : P ++ buf ++ blockBalls [] = P ++ buf := by simp [blockBalls]
    rw [e, eb, List.take_length]
    exact ⟨rfl, rfl, Or.inl le_rfl⟩
  | cons g gs ih =>
    have eb : blockBalls (g :: gs) = g.filter (·.inBlock) ++ blockBalls gs := by simp [blockBalls]
    rw [eb] at hs h0 ⊢
    have ea : P ++ buf ++ (g.filter (·.inBlock) ++ blockBalls gs) = P ++ (buf ++ g.filter (·.inBlock)) ++ blockBalls gs := by simp
    rw [ea] at hs ⊢
    rw [← List.append_assoc] at h0
    rw [loop]
    generalize buf ++ g.filter (·.inBlock) = B at *
    split
    · rename_i hl
      have hd : (draws c P).done = false := (draws_spec c P).2.2.1
      have hfl : flush c (draws c P) B = { draws c (P ++ B) with done := (flush c (draws c P) B).done } := by
        unfold flush
        rw [hd]
        simp [draws]
      by_cases hdone : (flush c (draws c P) B).done = true
      · rw [loop_done _ _ _ _ _ hdone, hfl]
        refine ⟨(P ++ B).length, ?_⟩
        rw [List.take_left, List.drop_left]
        refine ⟨rfl, rfl, Or.inr ?_⟩
        have hfold : B.foldl (drawBall c) (draws c P) = draws c (P ++ B) := by simp [draws]
        unfold flush at hdone
        rw [hd] at hdone
        simp only [Bool.false_eq_true, if_false, hfold, decide_eq_true_eq] at hdone
        rcases hdone with ⟨hp, ha⟩ | hm
        · right
          refine ⟨hp, fun b hb => ?_⟩
          cases ht : (draws c (P ++ B)).thr with
          | none => rw [ht] at ha; exact ha.elim
          | some t =>
            rw [ht] at ha
            show t < b.cp
            rcases far_le B 0 t ha with h | ⟨b', hb', h⟩
            · exact lt_of_lt_of_le h (h0 b (List.mem_append_right _ hb))
            · exact lt_of_lt_of_le h ((List.pairwise_append.mp hs).2.2 b' (List.mem_append_right _ hb') b hb)
        · exact Or.inl hm
      · have hfl2 : flush c (draws c P) B = draws c (P ++ B) := by
          rw [hfl]
          have h1 : (flush c (draws c P) B).done = false := by simpa using hdone
          have h2 : (draws c (P ++ B)).done = false := (draws_spec c (P ++ B)).2.2.1
          rw [h1, ← h2]
        rw [hfl2]
        have := ih [] (P ++ B) (by simpa using hs) (fun b hb => h0 b (by simp at hb ⊢; exact Or.inr hb))
        simpa using this
    · exact ih B P hs h0

/-- One pixel.  If the spheres come in order of their closest possible intersection, a prefix of the spheres of the block is drawn; spheres are left
out only if `max_n_hits` is reached or all of them begin behind the depth threshold. -/
theorem render_prefix (c : Cfg) (load : Nat) (gs : List (List Ball)) (hs : (blockBalls gs).Pairwise (fun a b => a.cp ≤ b.cp))
    (h0 : ∀ b ∈ blockBalls gs, 0 ≤ b.cp) :
    ∃ k, (render c load gs).pix = finish (Pix.init c.b c.bg) (hitsOf ((blockBalls gs).take k)) ∧
      (render c load gs).hits = (hitsOf ((blockBalls gs).take k)).map (fun h => (h.id, h.depth)) ∧
      ((blockBalls gs).length ≤ k ∨ c.maxHits ≤ (render c load gs).nHits ∨
        0 < c.pad ∧ ∀ b ∈ (blockBalls gs).drop k, threshold c (render c load gs).pix < b.cp) := by
  obtain ⟨k, h1, h2, h3⟩ := loop_spec c load gs [] [] (by simpa using hs) (by simpa using h0)
  simp only [List.nil_append] at h1 h2 h3
  have e : draws c [] = St.init c := rfl
  rw [e] at h1 h2
  obtain ⟨d1, d2, -, d4⟩ := draws_spec c ((blockBalls gs).take k)
  refine ⟨k, by rw [render, h1, d1], by rw [render, h2, d2], ?_⟩
  rcases h3 with h | h | ⟨hp, h⟩
  · exact Or.inl h
  · refine Or.inr (Or.inl ?_)
    rw [St.nHits, render, h2]
    exact h
  · refine Or.inr (Or.inr ⟨hp, fun b hb => ?_⟩)
    have := h b hb
    rw [d4] at this
    rw [render, h1, d1]
    split at this
    · exact this.elim
    · exact this

/-- Everything is drawn if no limit is set: `percent_allowed_difference = 0` and `max_n_hits` not reached. -/
theorem render_all (c : Cfg) (load : Nat) (gs : List (List Ball)) (hs : (blockBalls gs).Pairwise (fun a b => a.cp ≤ b.cp))
    (h0 : ∀ b ∈ blockBalls gs, 0 ≤ b.cp) (hp : c.pad = 0) (hm : (hitsOf (blockBalls gs)).length < c.maxHits) :
    (render c load gs).pix = finish (Pix.init c.b c.bg) (hitsOf (blockBalls gs)) := by
  obtain ⟨k, h1, h2, h3⟩ := render_prefix c load gs hs h0
  rcases h3 with h | h | ⟨h, -⟩
  · rw [h1, List.take_of_length_le h]
  · exfalso
    rw [St.nHits, h2, List.length_map] at h
    have : (hitsOf ((blockBalls gs).take k)).length ≤ (hitsOf (blockBalls gs)).length :=
      ((List.take_sublist k (blockBalls gs)).filterMap _).length_le
    omega
  · rw [hp] at h
    exact absurd h (lt_irrefl _)

/-- The meaning of the threshold: a hit that begins behind it has less than `pad / (1 - pad)` times the weight of all that was drawn (up to `eps`).
`e` and `w` are those of `draw`: depth at least `cp`, opacity and closeness between 0 and 1. -/
theorem threshold_weight (c : Cfg) (s : Pix) (hg : 0 < c.gamma) (hp : 0 < c.pad) (hp1 : c.pad < 1) (hr : c.minDist < c.maxDist) (he : 0 ≤ c.eps) (hd : 0 < s.d)
    (cp depth opacity closeness : ℝ) (ht : threshold c s < cp) (hdep : cp ≤ depth) (hmax : depth ≤ c.maxDist) (ho : 0 ≤ opacity) (ho1 : opacity ≤ 1)
    (hc1 : closeness ≤ 1) :
    closeness * opacity * Real.exp ((1 - (depth - c.minDist) / (c.maxDist - c.minDist)) / c.gamma * opacity) <
      c.pad / (1 - c.pad) * ((s.d + c.eps) * Real.exp s.m) := by
  have hR : 0 < c.maxDist - c.minDist := by linarith
  have hq : 0 < c.pad / (1 - c.pad) := div_pos hp (by linarith)
  have hde : 0 < s.d + c.eps := by linarith
  set x := (1 - (depth - c.minDist) / (c.maxDist - c.minDist)) / c.gamma with hx
  have hx0 : 0 ≤ x := by
    apply div_nonneg _ hg.le
    rw [sub_nonneg, div_le_one hR]
    linarith
  have hlt : x < Real.log (s.d + c.eps) + Real.log (c.pad / (1 - c.pad)) + s.m := by
    rw [hx, div_lt_iff₀ hg]
    unfold threshold at ht
    generalize Real.log (s.d + c.eps) + Real.log (c.pad / (1 - c.pad)) + s.m = y at *
    have : (1 - y * c.gamma) * (c.maxDist - c.minDist) < depth - c.minDist := by linarith
    have := (lt_div_iff₀ hR).mpr this
    linarith
  have hexp : Real.exp x < c.pad / (1 - c.pad) * ((s.d + c.eps) * Real.exp s.m) := by
    have := Real.exp_lt_exp.mpr hlt
    rw [Real.exp_add, Real.exp_add, Real.exp_log hde, Real.exp_log hq] at this
    linarith
  have h1 : Real.exp (x * opacity) ≤ Real.exp x := Real.exp_le_exp.mpr (mul_le_of_le_one_right hx0 ho1)
  have h2 : closeness * opacity ≤ 1 := by
    by_cases hc0 : 0 ≤ closeness
    · exact mul_le_one₀ hc1 ho ho1
    · have := mul_nonpos_of_nonpos_of_nonneg (not_le.mp hc0).le ho
      linarith
  calc closeness * opacity * Real.exp (x * opacity) ≤ 1 * Real.exp (x * opacity) := mul_le_mul_of_nonneg_right h2 (Real.exp_pos _).le
    _ ≤ Real.exp x := by rw [one_mul]; exact h1
    _ < _ := hexp

/-- Leaving hits of total weight `W` out changes a channel by at most the share `W / (D + W)`; colours lie in [0, 1]. -/
theorem left_out (b : ℝ) (bg : Nat → ℝ) (l r : List Hit) (hw : ∀ h ∈ l ++ r, 0 ≤ h.w) (c : Nat) (hb : 0 ≤ bg c ∧ bg c ≤ 1)
    (hc : ∀ h ∈ l ++ r, 0 ≤ h.col c ∧ h.col c ≤ 1) :
    |(Real.exp b * bg c + weighted (l ++ r) c) / (Real.exp b + weight (l ++ r)) - (Real.exp b * bg c + weighted l c) / (Real.exp b + weight l)| ≤
      weight r / (Real.exp b + weight l + weight r) := by
  have hl := weight_nonneg l fun h hm => hw h (List.mem_append_left _ hm)
  have hr := weight_nonneg r fun h hm => hw h (List.mem_append_right _ hm)
  have e1 : weight (l ++ r) = weight l + weight r := by simp [weight]
  have e2 : weighted (l ++ r) c = weighted l c + weighted r c := by simp [weighted]
  obtain ⟨l1, l2⟩ := weighted_between l (fun h hm => hw h (List.mem_append_left _ hm)) c 0 1 fun h hm => hc h (List.mem_append_left _ hm)
  obtain ⟨r1, r2⟩ := weighted_between r (fun h hm => hw h (List.mem_append_right _ hm)) c 0 1 fun h hm => hc h (List.mem_append_right _ hm)
  have hE := Real.exp_pos b
  rw [e1, e2]
  generalize weight l = x at *
  generalize weight r = y at *
  generalize weighted l c = u at *
  generalize weighted r c = v at *
  generalize Real.exp b = E at *
  have hD : 0 < E + x := by linarith
  have hDy : 0 < E + x + y := by linarith
  have hEb0 : 0 ≤ E * bg c := mul_nonneg hE.le hb.1
  have hEb1 : E * bg c ≤ E := mul_le_of_le_one_right hE.le hb.2
  have key : (E * bg c + (u + v)) / (E + (x + y)) - (E * bg c + u) / (E + x) = (v - y * ((E * bg c + u) / (E + x))) / (E + x + y) := by
    rw [← add_assoc E x y]
    field_simp
    ring
  rw [key, abs_div, abs_of_pos hDy]
  apply div_le_div_of_nonneg_right _ hDy.le
  have hq0 : 0 ≤ (E * bg c + u) / (E + x) := div_nonneg (by linarith) hD.le
  have hq1 : (E * bg c + u) / (E + x) ≤ 1 := by rw [div_le_one hD]; linarith
  have := mul_nonneg hr hq0
  have := mul_le_of_le_one_right hr hq1
  rw [abs_le]
  constructor <;> linarith

/-- So one sphere behind the threshold changes a channel by less than `percent_allowed_difference` (without the `eps` in the logarithm). -/
theorem left_out_one (b : ℝ) (bg : Nat → ℝ) (l : List Hit) (h : Hit) (hw : ∀ x ∈ l ++ [h], 0 ≤ x.w) (c : Nat) (hb : 0 ≤ bg c ∧ bg c ≤ 1)
    (hc : ∀ x ∈ l ++ [h], 0 ≤ x.col c ∧ x.col c ≤ 1) (pad : ℝ) (hp1 : pad < 1)
    (hlt : h.w * Real.exp h.e < pad / (1 - pad) * (Real.exp b + weight l)) :
    |(Real.exp b * bg c + weighted (l ++ [h]) c) / (Real.exp b + weight (l ++ [h])) - (Real.exp b * bg c + weighted l c) / (Real.exp b + weight l)| < pad := by
  refine lt_of_le_of_lt (left_out b bg l [h] hw c hb hc) ?_
  have hl := weight_nonneg l fun x hm => hw x (List.mem_append_left _ hm)
  have e : weight [h] = h.w * Real.exp h.e := by simp [weight]
  have h0 : 0 ≤ h.w * Real.exp h.e := mul_nonneg (hw h (by simp)) (Real.exp_pos _).le
  have hE := Real.exp_pos b
  rw [e, div_lt_iff₀ (by linarith)]
  rw [div_mul_eq_mul_div, lt_div_iff₀ (by linarith)] at hlt
  linarith

/-- The spheres of `left_out_many`: a black hit in front and `n` misses; `n` white hits behind. -/
def hit0 : Hit := ⟨1, 1, fun _ => 0, 0, 0⟩
def hit1 : Hit := ⟨0, 1, fun _ => 1, 1, 1⟩
noncomputable def near (n : Nat) : List Ball := ⟨true, 0, some hit0⟩ :: List.replicate n ⟨true, 0, none⟩
noncomputable def far (n : Nat) : List Ball := List.replicate n ⟨true, 1, some hit1⟩

theorem near_filter (n : Nat) : (near n).filter (·.inBlock) = near n := by simp [near]
theorem far_filter (n : Nat) : (far n).filter (·.inBlock) = far n := by simp [far]
theorem near_hits (n : Nat) : hitsOf (near n) = [hit0] := by simp [hitsOf, near]
theorem far_hits (n : Nat) : hitsOf (far n) = List.replicate n hit1 := by simp [hitsOf, far]
theorem near_mem (n : Nat) (b : Ball) (h : b ∈ near n) : b.cp = 0 := by
  simp only [near, List.mem_cons] at h
  rcases h with rfl | h
  · rfl
  · rw [List.eq_of_mem_replicate h]
theorem far_mem (n : Nat) (b : Ball) (h : b ∈ far n) : b.cp = 1 := by rw [List.eq_of_mem_replicate h]

open Classical in
/-- But the bound is per sphere, not for the image: with `percent_allowed_difference = 1/2` a black sphere hides one hundred white spheres which
together would make up more than half of the pixel. -/
theorem left_out_many : ∃ (c : Cfg) (gs : List (List Ball)), c.pad = 1 / 2 ∧ (blockBalls gs).Pairwise (fun a b => a.cp ≤ b.cp) ∧
    (∀ b ∈ blockBalls gs, 0 ≤ b.cp) ∧ (render c 64 gs).pix.color c.eps 0 = 0 ∧
    1 / 2 < (finish (Pix.init c.b c.bg) (hitsOf (blockBalls gs))).color c.eps 0 := by
  let c : Cfg := ⟨1, 1 / 2, 1000, 0, 1, 1 / 1000000, 0, fun _ => 0⟩
  have hbb : blockBalls [near 64, far 100] = near 64 ++ far 100 := by
    rw [blockBalls, List.flatten_cons, List.flatten_cons, List.flatten_nil, List.append_nil, List.filter_append, near_filter, far_filter]
  have hh1 := near_hits 64
  have hh2 := far_hits 100
  have hpix : (draws c (near 64)).pix = ⟨Real.exp (-1) + 1, 1, fun _ => 0⟩ := by
    rw [(draws_spec c (near 64)).1, hh1]
    simp [finish, blend, Pix.init, hit0, c]
  refine ⟨c, [near 64, far 100], rfl, ?_, ?_, ?_, ?_⟩
  · rw [hbb, List.pairwise_append]
    refine ⟨?_, ?_, ?_⟩
    · exact List.pairwise_of_forall_mem_list fun a ha b hb => by rw [near_mem 64 a ha, near_mem 64 b hb]
    · exact List.pairwise_of_forall_mem_list fun a ha b hb => by rw [far_mem 100 a ha, far_mem 100 b hb]
    · intro a ha b hb
      rw [near_mem 64 a ha, far_mem 100 b hb]
      norm_num
  · intro b hb
    rw [hbb] at hb
    rcases List.mem_append.mp hb with hb | hb
    · rw [near_mem 64 b hb]
    · rw [far_mem 100 b hb]
      norm_num
  · have hthr : (draws c (near 64)).thr = some (threshold c (draws c (near 64)).pix) := by
      rw [(draws_spec c (near 64)).2.2.2, (draws_spec c (near 64)).1, hh1]
      simp
    have hneg : threshold c (draws c (near 64)).pix < 0 := by
      rw [hpix]
      simp only [threshold, c]
      have : 0 < Real.log (Real.exp (-1) + 1 + 1 / 1000000) := Real.log_pos (by have := Real.exp_pos (-1); linarith)
      norm_num
      norm_num at this
      linarith
    have hr : render c 64 [near 64, far 100] = { draws c (near 64) with done := true } := by
      have hfl : flush c (St.init c) (near 64) = { draws c (near 64) with done := true } := by
        unfold flush
        have : (St.init c).done = false := rfl
        rw [this]
        simp only [Bool.false_eq_true, if_false]
        have e : List.foldl (drawBall c) (St.init c) (near 64) = draws c (near 64) := rfl
        rw [e]
        have : decide ((0 < c.pad ∧ above (List.foldl (fun x b => max x b.cp) 0 (near 64)) (draws c (near 64)).thr) ∨ c.maxHits ≤ (draws c (near 64)).hits.length) = true := by
          rw [decide_eq_true_eq]
          refine Or.inl ⟨by norm_num [c], ?_⟩
          rw [hthr]
          refine lt_of_lt_of_le hneg ?_
          have : ∀ (l : List Ball) (x : ℝ), x ≤ l.foldl (fun x b => max x b.cp) x := by
            intro l
            induction l with
            | nil => exact fun x => le_refl x
            | cons a l ih => exact fun x => le_trans (le_max_left _ _) (ih _)
          exact this (near 64) 0
        rw [this]
      rw [render, loop]
      rw [near_filter, List.nil_append, if_pos (by rw [near, List.length_cons, List.length_replicate]; omega), hfl]
      exact loop_done _ _ _ _ _ rfl
    rw [hr]
    show (draws c (near 64)).pix.color c.eps 0 = 0
    rw [hpix]
    simp [Pix.color]
  · rw [hbb]
    have hh : hitsOf (near 64 ++ far 100) = hit0 :: List.replicate 100 hit1 := by
      rw [hitsOf, List.filterMap_append]
      show hitsOf (near 64) ++ hitsOf (far 100) = _
      rw [hh1, hh2]
      rfl
    rw [hh]
    have hw : ∀ h ∈ hit0 :: List.replicate 100 hit1, 0 ≤ h.w := by
      intro h hm
      rcases List.mem_cons.mp hm with rfl | hm
      · simp [hit0]
      · rw [List.eq_of_mem_replicate hm]
        simp [hit1]
    obtain ⟨hp, -, h3⟩ := denom_lower c.b c.bg (hit0 :: List.replicate 100 hit1) hw
    have h3 := h3 hit0 (by simp) (by
      intro h hm
      rcases List.mem_cons.mp hm with rfl | hm
      · simp [hit0]
      · rw [List.eq_of_mem_replicate hm]
        simp [hit0, hit1]) (by simp [hit0, c])
    have h3' : (1 : ℝ) ≤ (finish (Pix.init c.b c.bg) (hit0 :: List.replicate 100 hit1)).d := h3
    rw [color_softmax _ _ _ _ (le_trans (by norm_num [c]) h3') hp]
    have e1 : weight (hit0 :: List.replicate 100 hit1) = Real.exp 1 + 100 := by
      simp only [weight, List.map_cons, List.map_replicate, List.sum_cons, List.sum_replicate]
      simp [hit0, hit1]
    have e2 : weighted (hit0 :: List.replicate 100 hit1) 0 = 100 := by
      simp only [weighted, List.map_cons, List.map_replicate, List.sum_cons, List.sum_replicate]
      simp [hit0, hit1]
    rw [e1, e2]
    have := Real.exp_one_lt_d9
    have := Real.exp_pos 1
    simp only [c, Real.exp_zero]
    rw [lt_div_iff₀ (by linarith)]
    linarith

/-- `max_n_hits` does not limit the number of blended hits while the spheres of a block fit in the load buffer: the limit is only looked at when
the buffer is flushed. -/
theorem few_all (c : Cfg) (load : Nat) (gs : List (List Ball)) (h : (blockBalls gs).length ≤ load) : render c load gs = draws c (blockBalls gs) := by
  have key : ∀ (gs : List (List Ball)) (buf : List Ball) (s : St), s.done = false → (buf ++ blockBalls gs).length ≤ load →
      loop c load gs buf s = (buf ++ blockBalls gs).foldl (drawBall c) s := by
    intro gs
    induction gs with
    | nil =>
      intro buf s hd _
      simp [loop, hd, blockBalls]
    | cons g gs ih =>
      intro buf s hd hl
      have eb : blockBalls (g :: gs) = g.filter (·.inBlock) ++ blockBalls gs := by simp [blockBalls]
      rw [eb, ← List.append_assoc] at hl ⊢
      rw [loop]
      rw [if_neg (by simp at hl ⊢; omega)]
      exact ih _ s hd hl
  exact key gs [] (St.init c) rfl (by simpa using h)

theorem foldl_hits (c : Cfg) (l : List Ball) (s : St) : (l.foldl (drawBall c) s).hits.length ≤ s.hits.length + l.length := by
  rw [(draws_aux c l s).2.1, List.length_append, List.length_map]
  have : (hitsOf l).length ≤ l.length := List.length_filterMap_le _ _
  omega

/-- In general it is exceeded by less than the size of a full buffer. -/
theorem hits_bound (c : Cfg) (load G : Nat) (gs : List (List Ball)) (hG : ∀ g ∈ gs, g.length ≤ G) (hm : 0 < c.maxHits) :
    (render c load gs).nHits < c.maxHits + load + G := by
  have key : ∀ (gs : List (List Ball)) (buf : List Ball) (s : St), (∀ g ∈ gs, g.length ≤ G) → s.done = false → s.hits.length < c.maxHits → buf.length ≤ load →
      (loop c load gs buf s).hits.length < c.maxHits + load + G := by
    intro gs
    induction gs with
    | nil =>
      intro buf s _ hd hs hb
      rw [loop, hd]
      have := foldl_hits c buf s
      simp only [Bool.false_eq_true, if_false]
      omega
    | cons g gs ih =>
      intro buf s hG hd hs hb
      have hg := hG g List.mem_cons_self
      have hgf : (g.filter (·.inBlock)).length ≤ g.length := List.length_filter_le _ _
      rw [loop]
      split
      · have hfh : (flush c s (buf ++ g.filter (·.inBlock))).hits.length < c.maxHits + load + G := by
          have := foldl_hits c (buf ++ g.filter (·.inBlock)) s
          unfold flush
          rw [hd]
          simp only [Bool.false_eq_true, if_false]
          rw [List.length_append] at this
          omega
        by_cases hdone : (flush c s (buf ++ g.filter (·.inBlock))).done = true
        · rw [loop_done _ _ _ _ _ hdone]
          exact hfh
        · refine ih [] _ (fun g hg => hG g (List.mem_cons_of_mem _ hg)) (by simpa using hdone) ?_ (by simp)
          unfold flush at hdone ⊢
          rw [hd] at hdone ⊢
          simp only [Bool.false_eq_true, if_false, decide_eq_true_eq, not_or, not_le] at hdone ⊢
          exact hdone.2
      · rename_i hl
        exact ih _ s (fun g hg => hG g (List.mem_cons_of_mem _ hg)) hd hs (by omega)
  exact key gs [] (St.init c) hG rfl hm (by simp)

/-- The number of spheres in the load buffer after each round of loading (renderer.render.device.h:192-194, 298). -/
def fills (load : Nat) : List (List Ball) → Nat → List Nat
  | [], _ => []
  | g :: gs, n =>
    let n' := n + (g.filter (·.inBlock)).length
    n' :: fills load gs (if load < n' then 0 else n')

/-- The buffer never holds more than `RENDER_BUFFER_LOAD_THRESH` spheres plus one round: 64 + 16 · 16 of 512. -/
theorem buffer_bound (load G : Nat) (gs : List (List Ball)) (n : Nat) (hG : ∀ g ∈ gs, g.length ≤ G) (hn : n ≤ load) : ∀ x ∈ fills load gs n, x ≤ load + G := by
  induction gs generalizing n with
  | nil => simp [fills]
  | cons g gs ih =>
    have hg := hG g List.mem_cons_self
    have hgf : (g.filter (·.inBlock)).length ≤ g.length := List.length_filter_le _ _
    intro x hx
    rw [fills] at hx
    rcases List.mem_cons.mp hx with rfl | hx
    · omega
    · refine ih _ (fun g hg => hG g (List.mem_cons_of_mem _ hg)) ?_ x hx
      split <;> omega

/-! ### Examples -/

/-- Four hits, two slots. -/
example : (trackAll 2 1000 [(0, 3), (1, 1), (2, 2), (3, 1)]).info 2 1000 = [(3, 1), (1, 1)] := by
  rw [info_spec _ _ _ (by intro x hx; simp at hx; rcases hx with rfl | rfl | rfl | rfl <;> norm_num)]
  norm_num [List.insertionSort, List.orderedInsert, le]

/-- One hit, three slots. -/
example : (trackAll 3 1000 [(5, 2)]).info 3 1000 = [(5, 2), (-1, -1), (-1, -1)] := by
  rw [info_spec _ _ _ (by intro x hx; simp at hx; subst hx; norm_num)]
  simp [List.replicate]

/-- Two hits of equal depth and weight on a black background of the same depth: a third each. -/
example : (finish (Pix.init 0 fun _ => 0) [⟨0, 1, fun _ => 1, 0, 0⟩, ⟨0, 1, fun _ => 1, 0, 1⟩]).color (1 / 1000000) 0 = 2 / 3 := by
  have hd := (denom_lower 0 (fun _ => 0) [⟨0, 1, fun _ => 1, 0, 0⟩, ⟨0, 1, fun _ => 1, 0, 1⟩] (by simp)).2.1 (by simp)
  rw [color_softmax _ _ _ _ (le_trans (by norm_num) hd) (lt_of_lt_of_le one_pos hd)]
  norm_num [weight, weighted]

/-- Three spheres are drawn although `max_n_hits` is one. -/
example : (render ⟨1, 0, 1, 0, 1, 0, 0, fun _ => 0⟩ 64 [[⟨true, 0, some ⟨0, 1, fun _ => 1, 0, 0⟩⟩, ⟨false, 0, some ⟨0, 1, fun _ => 1, 0, 9⟩⟩],
    [⟨true, 0, some ⟨0, 1, fun _ => 1, 0, 1⟩⟩, ⟨true, 0, some ⟨0, 1, fun _ => 1, 0, 2⟩⟩]]).nHits = 3 := by
  rw [few_all _ _ _ (by simp [blockBalls]), St.nHits, (draws_spec _ _).2.1]
  simp [blockBalls, hitsOf]

/-- The buffer of a host build, one sphere per round, threshold 2. -/
example : fills 2 [[⟨true, 0, none⟩], [⟨true, 0, none⟩], [⟨true, 0, none⟩], [⟨true, 0, none⟩]] 0 = [1, 2, 3, 1] := by simp [fills]

end P3D.PulsarRender
