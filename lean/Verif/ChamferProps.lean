/-
C18: chamfer_distance: value, symmetry, non-negativity, zero, padding, permutations, weights, normals.
-/
import Verif.Chamfer
import Verif.KnnProps
import Mathlib.Algebra.Order.BigOperators.Group.List
import Mathlib.Algebra.BigOperators.Ring.List
import Mathlib.Tactic.Ring
import Mathlib.Tactic.Linarith
import Mathlib.Tactic.Positivity

set_option linter.unusedSectionVars false

namespace P3D.Chamfer
open P3D.Knn

variable {R U : Type*} [Field R] [LinearOrder R] [IsStrictOrderedRing R]

/-! ### Specification -/

/-- The points of an element (without padding), and their normals. -/
def Elt.valid (e : Elt R U) : List (List R) := e.pts.take e.len
def Elt.validN (e : Elt R U) : List U := e.nrm.take e.len

structure Batch.WF (b : Batch R U) : Prop where
  pts : ∀ e ∈ b.elts, e.pts.length = b.P
  len : ∀ e ∈ b.elts, e.len ≤ b.P
  nrm : b.hasN = true → ∀ e ∈ b.elts, e.nrm.length = b.P

/-- Distance from `p` to the nearest point of `Y`; 0 if there is none. -/
def nn (norm : Nat) (Y : List (List R)) (p : List R) : R := ((Y.map (pdist norm p)).min?).getD 0

/-- Position of the first nearest point. -/
def nnIdx (norm : Nat) (Y : List (List R)) (p : List R) : Nat :=
  (Y.map (pdist norm p)).idxOf (nn norm Y p)

/-- Reduction over points. -/
def reduce (pr : PointRed) (l : List R) : R :=
  match pr with
  | .sum => l.sum
  | .mean => l.sum / (Nat.max l.length 1 : Nat)
  | .max => l.foldr max 0

/-- One direction of the distance between two point lists. -/
def oneWay (pr : PointRed) (norm : Nat) (X Y : List (List R)) : R := reduce pr (X.map (nn norm Y))

/-- Both directions. -/
def twoWay (pr : PointRed) (norm : Nat) (X Y : List (List R)) : R :=
  match pr with
  | .max => max (oneWay .max norm X Y) (oneWay .max norm Y X)
  | pr => oneWay pr norm X Y + oneWay pr norm Y X

/-- Normal term of one point. -/
def normalTerm (zero : U) (sim : U → U → R) (abs : Bool) (norm : Nat) (Y : List (List R))
    (NY : List U) (p : List R) (n : U) : R :=
  let m := if Y = [] then zero else NY.getD (nnIdx norm Y p) zero
  1 - (if abs then |sim n m| else sim n m)

def oneWayN (zero : U) (sim : U → U → R) (abs : Bool) (pr : PointRed) (norm : Nat) (x y : Elt R U) : R :=
  reduce pr (List.zipWith (normalTerm zero sim abs norm y.valid y.validN) x.valid x.validN)

/-! ### Nearest neighbour -/

theorem pdist_nonneg (norm : Nat) (p q : List R) : 0 ≤ pdist norm p q := by
  unfold pdist
  have : ∀ (l : List (R × R)) (a : R), 0 ≤ a →
      0 ≤ l.foldl (fun acc xy => acc + coordDist norm xy.1 xy.2) a := by
    intro l
    induction l with
    | nil => intro a ha; exact ha
    | cons z l ih =>
      intro a ha
      apply ih
      have : 0 ≤ coordDist norm z.1 z.2 := by
        unfold coordDist
        split
        · exact abs_nonneg _
        · exact mul_self_nonneg _
      linarith
  exact this _ _ (le_refl _)

theorem knnRow_one (ds : List R) :
    knnRow 1 ds = some [(ds.min?.getD 0, if ds = [] then 0 else ds.idxOf (ds.min?.getD 0))] := by
  obtain ⟨r, hr, h⟩ := knnRow_spec (K := 1) (by omega) ds
  rw [h]
  by_cases h0 : ds = []
  · subst h0
    have : r = [] := List.length_eq_zero_iff.mp (by rw [hr.length]; simp [stream])
    subst this
    simp
  · have hl : r.length = 1 := by
      rw [hr.length]
      have := List.length_pos_iff.mpr h0
      simp [stream]; omega
    obtain ⟨a, rfl⟩ := List.length_eq_one_iff.mp hl
    obtain ⟨rest, hp, hle⟩ := hr.split
    have hmem : ∀ b ∈ stream ds, a ≤ b := by
      intro b hb
      rcases List.mem_append.mp (hp.mem_iff.mpr hb) with h1 | h1
      · rw [List.mem_singleton] at h1; exact h1.ge
      · exact hle a (by simp) b h1
    have hain : a ∈ stream ds := hp.mem_iff.mp (by simp)
    have hget : ds[(ofLex a).2]? = some (ofLex a).1 := by
      unfold stream at hain
      obtain ⟨b, hb, rfl⟩ := List.mem_map.mp hain
      exact List.mk_mem_zipIdx_iff_getElem?.mp hb
    have hin : ∀ i v, ds[i]? = some v → toLex (v, i) ∈ stream ds := by
      intro i v hv
      exact List.mem_map.mpr ⟨(v, i), List.mk_mem_zipIdx_iff_getElem?.mpr hv, rfl⟩
    have hmin : ds.min? = some (ofLex a).1 := by
      rw [List.min?_eq_some_iff]
      constructor
      · exact List.mem_of_getElem? hget
      · intro b hb
        obtain ⟨i, hi⟩ := List.mem_iff_getElem?.mp hb
        have := hmem _ (hin i b hi)
        rw [Prod.Lex.le_iff] at this
        rcases this with h | h
        · exact h.le
        · exact h.1.le
    have hidx : ds.idxOf (ofLex a).1 = (ofLex a).2 := by
      have hm : (ofLex a).1 ∈ ds := List.mem_of_getElem? hget
      have hlt := List.idxOf_lt_length_iff.mpr hm
      have hval : ds[ds.idxOf (ofLex a).1]? = some (ofLex a).1 := by
        rw [List.getElem?_eq_getElem hlt, List.getElem_idxOf hlt]
      apply le_antisymm
      · obtain ⟨hj, hjv⟩ := List.getElem?_eq_some_iff.mp hget
        by_contra hc
        have := List.not_of_lt_findIdx (p := (· == (ofLex a).1)) (xs := ds) (i := (ofLex a).2)
          (by simpa [List.idxOf] using hc)
        simp [hjv] at this
      · have := hmem _ (hin _ _ hval)
        rw [Prod.Lex.le_iff] at this
        rcases this with h | h
        · exact absurd h (lt_irrefl _)
        · exact h.2
    simp [h0, hmin, hidx]

theorem mapM_ok {α β : Type*} (l : List α) (f : α → Except Err β) (g : α → β)
    (h : ∀ a ∈ l, f a = .ok (g a)) : l.mapM f = .ok (l.map g) := by
  induction l with
  | nil => rfl
  | cons a l ih =>
    rw [List.mapM_cons, h a (by simp), ih fun b hb => h b (by simp [hb])]
    rfl

theorem mapM_some {α β : Type*} (l : List α) (f : α → Option β) (g : α → β)
    (h : ∀ a ∈ l, f a = some (g a)) : l.mapM f = some (l.map g) := by
  induction l with
  | nil => rfl
  | cons a l ih =>
    rw [List.mapM_cons, h a (by simp), ih fun b hb => h b (by simp [hb])]
    rfl

theorem zipIdx_split {α β : Type*} (l : List α) (n : Nat) (hn : n ≤ l.length) (f : α → β) (z : β) :
    (l.zipIdx.map fun e => if e.2 < n then f e.1 else z)
      = (l.take n).map f ++ List.replicate (l.length - n) z := by
  apply List.ext_getElem?
  intro k
  by_cases hk : k < l.length
  · by_cases hkn : k < n
    · rw [List.getElem?_append_left (by simp; omega)]
      simp [hkn, hk]
    · rw [List.getElem?_append_right (by simp; omega)]
      simp only [List.getElem?_map, List.getElem?_zipIdx, List.getElem?_eq_getElem hk, Option.map_some,
        Nat.zero_add, hkn, if_false, List.length_map, List.length_take]
      rw [List.getElem?_replicate, if_pos (by omega)]
  · rw [List.getElem?_eq_none (by simp; omega), List.getElem?_eq_none (by simp; omega)]

theorem knnCloud_rows (norm : Nat) (x y : Elt R U) (hx : x.len ≤ x.pts.length) :
    knnCloudCpu norm 1 x.pts y.pts x.len y.len = some
      ((x.valid.map fun p => [(nn norm y.valid p,
          if y.valid = [] then 0 else nnIdx norm y.valid p)])
        ++ List.replicate (x.pts.length - x.len) [(0, 0)]) := by
  unfold knnCloudCpu
  rw [mapM_some _ _ (fun pi : List R × Nat => if pi.2 < x.len then [(nn norm y.valid pi.1,
      if y.valid = [] then 0 else nnIdx norm y.valid pi.1)] else [(0, 0)])]
  · rw [zipIdx_split x.pts x.len hx (fun p => [(nn norm y.valid p,
      if y.valid = [] then 0 else nnIdx norm y.valid p)]) [(0, 0)]]
    rfl
  · rintro ⟨p, i⟩ _
    by_cases h : i < x.len
    · simp only [h, if_true]
      rw [knnRow_one]
      by_cases h0 : y.valid = []
      · have h1 : List.take y.len y.pts = [] := h0
        simp [nn, Elt.valid, h1]
      · have h1 : List.take y.len y.pts ≠ [] := h0
        simp only [nn, nnIdx, Elt.valid, List.map_eq_nil_iff, h1, if_false]
    · simp [h]

theorem maskPad_eq (hetero : Bool) (len : Nat) (v : List R) (hv : v.length = len) (k : Nat)
    (z : List R) (hz : z.length = k) (h : hetero = false → z = List.replicate k 0) :
    maskPad hetero len (v ++ z) = v ++ List.replicate k 0 := by
  unfold maskPad
  cases hetero
  · simp only [Bool.false_eq_true, if_false]; rw [h rfl]
  · simp only [if_true]
    have := zipIdx_split (v ++ z) len (by simp; omega) (fun e : R => e) 0
    have e : ((v ++ z).zipIdx.map fun e => if e.2 ≥ len then (0 : R) else e.1)
        = (v ++ z).zipIdx.map fun e => if e.2 < len then e.1 else 0 := by
      apply List.map_congr_left
      rintro ⟨a, i⟩ _
      by_cases h : i < len
      · simp [h, not_le.mpr h]
      · simp [h, not_lt.mp h]
    rw [e, this]
    simp [← hv, hz]

/-- Value of the per-point terms of one element. -/
theorem dirElt_value (zero : U) (sim : U → U → R) (cfg : Cfg) {hetero shortY useN : Bool}
    {x y : Elt R U} {P : Nat} (hP : x.pts.length = P) (hx : x.len ≤ P)
    (hh : hetero = false → x.len = P) (hs : y.len = 0 → shortY = true)
    (hyl : y.len ≤ y.pts.length)
    (hn : useN = true → x.nrm.length = P ∧ y.nrm.length = y.pts.length ∧ 0 < y.pts.length)
    (w : Option R) :
    dirElt zero sim cfg hetero shortY useN x y w = .ok
      (weigh w (x.valid.map (nn cfg.norm y.valid) ++ List.replicate (P - x.len) 0),
       if useN then weigh w (List.zipWith
          (normalTerm zero sim cfg.absCos cfg.norm y.valid y.validN) x.valid x.validN
          ++ List.replicate (P - x.len) 0) else []) := by
  have hvl : x.valid.length = x.len := by simp [Elt.valid, hP, hx]
  unfold dirElt
  rw [knnCloud_rows cfg.norm x y (by omega)]
  simp only [List.map_append, List.map_map, List.map_replicate]
  have e1 : maskPad hetero x.len (List.map ((fun r : List (R × Nat) => (r.headD (0, 0)).1) ∘ fun p =>
        [(nn cfg.norm y.valid p, if y.valid = [] then 0 else nnIdx cfg.norm y.valid p)]) x.valid
      ++ List.replicate (x.pts.length - x.len) ((([(0, 0)] : List (R × Nat)).headD (0, 0)).1))
      = x.valid.map (nn cfg.norm y.valid) ++ List.replicate (P - x.len) 0 := by
    have : (List.map ((fun r : List (R × Nat) => (r.headD (0, 0)).1) ∘ fun p =>
        [(nn cfg.norm y.valid p, if y.valid = [] then 0 else nnIdx cfg.norm y.valid p)]) x.valid)
        = x.valid.map (nn cfg.norm y.valid) := by
      apply List.map_congr_left; intro p _; rfl
    rw [this, hP]
    exact maskPad_eq hetero x.len _ (by simp [hvl]) (P - x.len) _ (by simp) (fun _ => rfl)
  cases useN
  · simp only [Bool.false_eq_true, if_false]
    rw [e1]
  · obtain ⟨hn1, hn2, hn3⟩ := hn rfl
    have hyv : y.valid = [] ↔ y.len = 0 := by
      simp only [Elt.valid, List.take_eq_nil_iff]
      constructor
      · rintro (h | h)
        · exact h
        · rw [h] at hn3; simp at hn3
      · exact Or.inl
    -- gather of one row
    have hg : ∀ j, j < y.nrm.length → gatherRow zero shortY y.len y.nrm [j]
        = some [if y.len = 0 then zero else y.nrm.getD j zero] := by
      intro j hj
      simp only [gatherRow, List.zipIdx_cons, List.zipIdx_nil, List.mapM_cons, List.mapM_nil, gatherCell,
        List.getElem?_eq_getElem hj]
      by_cases h0 : y.len = 0
      · simp [h0, hs h0]
      · have : ¬ y.len ≤ 0 := by omega
        simp [h0, List.getD, hj]
    have hidx : ∀ p, y.valid ≠ [] → nnIdx cfg.norm y.valid p < y.len := by
      intro p hne
      have hl : (y.valid.map (pdist cfg.norm p)).length = y.len := by simp [Elt.valid, hyl]
      unfold nnIdx
      conv_rhs => rw [← hl]
      rw [List.idxOf_lt_length_iff]
      unfold nn
      have hne' : y.valid.map (pdist cfg.norm p) ≠ [] := by simpa using hne
      obtain ⟨m, hm⟩ := Option.isSome_iff_exists.mp (List.isSome_min?_of_ne_nil hne')
      rw [hm]
      exact (List.min?_eq_some_iff.mp hm).1
    have hrows : ((x.valid.map fun p => [(nn cfg.norm y.valid p,
          if y.valid = [] then 0 else nnIdx cfg.norm y.valid p)])
        ++ List.replicate (x.pts.length - x.len) [((0 : R), 0)]).mapM
          (fun r : List (R × Nat) => gatherRow zero shortY y.len y.nrm (r.map Prod.snd))
        = some ((x.valid.map fun p => [if y.valid = [] then zero else
            y.validN.getD (nnIdx cfg.norm y.valid p) zero])
          ++ List.replicate (x.pts.length - x.len) [if y.len = 0 then zero else y.nrm.getD 0 zero]) := by
      rw [mapM_some _ _ (fun r : List (R × Nat) => [if y.len = 0 then zero else
        y.nrm.getD ((r.map Prod.snd).headD 0) zero])]
      · rw [List.map_append, List.map_map, List.map_replicate]
        congr 2
        apply List.map_congr_left
        intro p _
        simp only [Function.comp_apply, List.map_cons, List.map_nil, List.headD_cons, hyv]
        by_cases h0 : y.len = 0
        · simp [h0]
        · have hlt := hidx p (by rw [ne_eq, hyv]; exact h0)
          simp only [h0, if_false, Elt.validN, List.getD, List.getElem?_take_of_lt hlt]
      · intro r hr
        rcases List.mem_append.mp hr with hr | hr
        · obtain ⟨p, _, rfl⟩ := List.mem_map.mp hr
          simp only [List.map_cons, List.map_nil, List.headD_cons]
          apply hg
          by_cases h0 : y.valid = []
          · rw [if_pos h0]; omega
          · rw [if_neg h0]; have := hidx p h0; omega
        · rw [List.eq_of_mem_replicate hr]
          simp only [List.map_cons, List.map_nil, List.headD_cons]
          apply hg
          omega
    simp only [if_true]
    rw [hrows]
    simp only
    rw [e1]
    congr 2
    have hsplit : x.nrm = x.validN ++ x.nrm.drop x.len := (List.take_append_drop _ _).symm
    rw [hsplit, List.zipWith_append (by simp [Elt.validN, Elt.valid, hn1, hP, hx])]
    have hm := maskPad_eq hetero x.len (List.zipWith (fun n (m : List U) =>
          1 - (if cfg.absCos then |sim n (m.headD zero)| else sim n (m.headD zero))) x.validN
          (x.valid.map fun p => [if y.valid = [] then zero else
            y.validN.getD (nnIdx cfg.norm y.valid p) zero]))
      (by simp [Elt.validN, hvl, hn1, hx]) (P - x.len)
      (List.zipWith (fun n (m : List U) =>
          1 - (if cfg.absCos then |sim n (m.headD zero)| else sim n (m.headD zero))) (x.nrm.drop x.len)
          (List.replicate (x.pts.length - x.len) [if y.len = 0 then zero else y.nrm.getD 0 zero]))
      (by simp [hn1, hP]) (fun hf => by
        have := hh hf
        rw [List.drop_eq_nil_of_le (by omega), show P - x.len = 0 by omega]
        simp)
    rw [hm]
    congr 2
    rw [List.zipWith_map_right, List.zipWith_comm]
    rfl

/-! ### Reductions -/

def wval (w : Option R) : R := w.getD 1

theorem foldl_max_eq (l : List R) (a : R) : l.foldl max a = max a (l.foldr max 0) ∨ (a < 0 ∧ True) := by
  by_cases ha : a < 0
  · exact Or.inr ⟨ha, trivial⟩
  · left
    push Not at ha
    induction l generalizing a with
    | nil => simp [ha]
    | cons b l ih =>
      rw [List.foldl_cons, List.foldr_cons, ih (max a b) (le_max_of_le_left ha), max_assoc]

theorem redElt_eq (pr : PointRed) (w : Option R) (v : List R) (k : Nat)
    (hmax : pr = .max → 0 < v.length + k ∧ (∀ a ∈ v, 0 ≤ a) ∧ 0 ≤ wval w) :
    redElt pr v.length (weigh w (v ++ List.replicate k 0)) = .ok (wval w * reduce pr v) := by
  have hs : (weigh w (v ++ List.replicate k 0)).sum = wval w * v.sum := by
    cases w with
    | none => simp [weigh, wval]
    | some w =>
      simp only [weigh, wval, Option.getD_some]
      rw [List.sum_map_mul_right]
      simp [mul_comm]
  cases pr with
  | sum => simp only [redElt, reduce]; rw [hs]
  | mean => simp only [redElt, reduce]; rw [hs, mul_div_assoc]
  | max =>
    obtain ⟨h1, h2, h3⟩ := hmax rfl
    have hw : weigh w (v ++ List.replicate k 0)
        = (v.map fun a => wval w * a) ++ List.replicate k 0 := by
      cases w with
      | none => simp [weigh, wval]
      | some w => simp [weigh, wval, mul_comm]
    have hf : ∀ l : List R, (l.map fun a => wval w * a).foldr max 0 = wval w * l.foldr max 0 := by
      intro l
      induction l with
      | nil => simp
      | cons a l ih => simp only [List.map_cons, List.foldr_cons, ih, mul_max_of_nonneg _ _ h3]
    have hz : (List.replicate k (0:R)).foldr max 0 = 0 := by
      clear hmax h1 hs hw
      induction k with
      | zero => rfl
      | succ k ih => rw [List.replicate_succ, List.foldr_cons, ih, max_self]
    rw [hw]
    have hall : ∀ a ∈ (v.map fun a => wval w * a) ++ List.replicate k (0:R), 0 ≤ a := by
      intro a ha
      rcases List.mem_append.mp ha with ha | ha
      · obtain ⟨b, hb, rfl⟩ := List.mem_map.mp ha
        exact mul_nonneg h3 (h2 b hb)
      · rw [List.eq_of_mem_replicate ha]
    have hfold : ((v.map fun a => wval w * a) ++ List.replicate k (0:R)).foldr max 0
        = wval w * v.foldr max 0 := by
      rw [List.foldr_append, hz, hf]
    have hlen : 0 < ((v.map fun a => wval w * a) ++ List.replicate k (0:R)).length := by simpa using h1
    revert hall hfold hlen
    generalize (v.map fun a => wval w * a) ++ List.replicate k (0:R) = l
    intro hall hfold hlen
    match l, hlen with
    | a :: t, _ =>
      simp only [redElt, reduce]
      rw [← hfold, List.foldr_cons]
      rcases foldl_max_eq t a with h | h
      · rw [h]
      · exact absurd h.1 (not_lt.mpr (hall a (by simp)))

/-! ### One direction, whole batch -/

/-- Acceptable weights: none, or non-negative with positive sum, one per element. -/
def GoodW (N : Nat) (w : Option (List R)) : Prop :=
  ∀ ws, w = some ws → ws.length = N ∧ (∀ v ∈ ws, 0 ≤ v) ∧ ws.sum ≠ 0

/-- Weight of each element. -/
def wlist (N : Nat) (w : Option (List R)) : List R := w.getD (List.replicate N 1)

theorem wlist_length {N : Nat} {w : Option (List R)} (hw : GoodW N w) : (wlist N w).length = N := by
  cases w with
  | none => simp [wlist]
  | some ws => exact (hw ws rfl).1

theorem wlist_nonneg {N : Nat} {w : Option (List R)} (hw : GoodW N w) : ∀ v ∈ wlist N w, 0 ≤ v := by
  cases w with
  | none => intro v hv; rw [List.eq_of_mem_replicate hv]; exact zero_le_one
  | some ws => exact (hw ws rfl).2.1

/-- Triples (x element, y element, weight). -/
def triples (x y : Batch R U) (w : Option (List R)) : List ((Elt R U × Elt R U) × R) :=
  (x.elts.zip y.elts).zip (wlist x.elts.length w)

theorem direction_go {zero : U} {sim : U → U → R} {cfg : Cfg} {x y : Batch R U}
    {w : Option (List R)} (hw : GoodW x.elts.length w) (hl : y.elts.length = x.elts.length) :
    direction zero sim cfg x y w = direction.go zero sim cfg x y w (x.hasN && y.hasN)
      (x.elts.any fun e => decide (e.len ≠ x.P)) x.elts.length := by
  unfold direction
  simp only [ne_eq, hl, not_true_eq_false, if_false]
  cases w with
  | none => rfl
  | some ws =>
    obtain ⟨h1, h2, h3⟩ := hw ws rfl
    have hall : (ws.all fun v => decide (v ≥ 0)) = true := by
      rw [List.all_eq_true]; intro v hv; exact decide_eq_true (h2 v hv)
    simp only [h1, not_true_eq_false, if_false, hall, h3]

theorem rows_eq {zero : U} {sim : U → U → R} {cfg : Cfg} {x y : Batch R U}
    {w : Option (List R)} (hx : x.WF) (hy : y.WF)
    (hP : x.hasN = true → y.hasN = true → 0 < y.P) :
    ((x.elts.zip y.elts).zip (optWeights x.elts.length w)).mapM (fun a =>
      dirElt zero sim cfg (x.elts.any fun e => decide (e.len ≠ x.P))
        (y.elts.any fun e => decide (e.len < 1)) (x.hasN && y.hasN) a.1.1 a.1.2 a.2)
    = .ok (((x.elts.zip y.elts).zip (optWeights x.elts.length w)).map fun a =>
      (weigh a.2 (a.1.1.valid.map (nn cfg.norm a.1.2.valid) ++ List.replicate (x.P - a.1.1.len) 0),
       if x.hasN && y.hasN then weigh a.2 (List.zipWith
          (normalTerm zero sim cfg.absCos cfg.norm a.1.2.valid a.1.2.validN) a.1.1.valid a.1.1.validN
          ++ List.replicate (x.P - a.1.1.len) 0) else [])) := by
  apply mapM_ok
  rintro ⟨⟨ex, ey⟩, wv⟩ ha
  have hz := List.of_mem_zip (List.of_mem_zip ha).1
  have hex := hz.1
  have hey := hz.2
  apply dirElt_value zero sim cfg (hx.pts ex hex) (hx.len ex hex)
  · intro hf
    by_contra hne
    have : (x.elts.any fun e => decide (e.len ≠ x.P)) = true :=
      List.any_eq_true.mpr ⟨ex, hex, decide_eq_true hne⟩
    rw [this] at hf; cases hf
  · intro h0
    exact List.any_eq_true.mpr ⟨ey, hey, decide_eq_true (by simp only at h0; omega)⟩
  · rw [hy.pts ey hey]; exact hy.len ey hey
  · intro hn
    rw [Bool.and_eq_true] at hn
    exact ⟨hx.nrm hn.1 ex hex, by rw [hy.nrm hn.2 ey hey, hy.pts ey hey],
      by rw [hy.pts ey hey]; exact hP hn.1 hn.2⟩

/-- **C18 (one direction).** Value of `_chamfer_distance_single_direction`: per element, the weighted
reduction of the distances to the nearest point, and of the normal terms. -/
theorem direction_value (zero : U) (sim : U → U → R) {cfg : Cfg} {pr : PointRed}
    (hpr : cfg.pointRed = some pr) {x y : Batch R U} {w : Option (List R)} (hx : x.WF) (hy : y.WF)
    (hl : y.elts.length = x.elts.length) (hw : GoodW x.elts.length w)
    (hP : x.hasN = true → y.hasN = true → 0 < y.P ∧ pr ≠ .max)
    (hmax : pr = .max → 0 < x.P) :
    direction zero sim cfg x y w = .ok
      (.t1 ((triples x y w).map fun a => a.2 * oneWay pr cfg.norm a.1.1.valid a.1.2.valid),
       if x.hasN && y.hasN then
         some (.t1 ((triples x y w).map fun a =>
           a.2 * oneWayN zero sim cfg.absCos pr cfg.norm a.1.1 a.1.2)) else none) := by
  rw [direction_go hw hl]
  unfold direction.go
  simp only
  rw [rows_eq hx hy fun h1 h2 => (hP h1 h2).1]
  simp only [hpr]
  set wl : List (Option R) := optWeights x.elts.length w with hwl
  have hwlen : wl.length = x.elts.length := by
    rw [hwl]; cases w with
    | none => simp [optWeights]
    | some ws => simp [optWeights, (hw ws rfl).1]
  have hwv : wl.map wval = wlist x.elts.length w := by
    rw [hwl]; cases w with
    | none => simp [optWeights, wlist, wval]
    | some ws => simp [optWeights, wlist, wval, Function.comp_def]
  have hnonneg : ∀ o ∈ wl, 0 ≤ wval o := by
    intro o ho
    exact wlist_nonneg hw _ (by rw [← hwv]; exact List.mem_map_of_mem ho)
  -- zip of rows with x.elts
  have hzip : ∀ (F : ((Elt R U × Elt R U) × Option R) → List R × List R),
      (((x.elts.zip y.elts).zip wl).map F).zip x.elts
        = ((x.elts.zip y.elts).zip wl).map fun a => (F a, a.1.1) := by
    intro F
    apply List.ext_getElem
    · simp [hl, hwlen]
    · intro i h1 h2
      simp
  have hred : ∀ (F : ((Elt R U × Elt R U) × Option R) → List R × List R)
      (sel : List R × List R → List R) (vals : Elt R U → Elt R U → List R),
      (∀ a, a.1.1 ∈ x.elts → a.1.2 ∈ y.elts →
        sel (F a) = weigh a.2 (vals a.1.1 a.1.2 ++ List.replicate (x.P - a.1.1.len) 0)
        ∧ (vals a.1.1 a.1.2).length = a.1.1.len ∧ (pr = .max → ∀ v ∈ vals a.1.1 a.1.2, 0 ≤ v)) →
      ((((x.elts.zip y.elts).zip wl).map F).zip x.elts).mapM (fun a => redElt pr a.2.len (sel a.1))
        = .ok ((triples x y w).map fun a => a.2 * reduce pr (vals a.1.1 a.1.2)) := by
    intro F sel vals hF
    rw [hzip, mapM_ok _ _ (fun a => redElt pr a.2.len (sel a.1) |>.toOption.getD 0)]
    · congr 1
      rw [List.map_map]
      have htr : triples x y w = ((x.elts.zip y.elts).zip wl).map fun a => (a.1, wval a.2) := by
        rw [triples, ← hwv, List.zip_map_right]
        rfl
      rw [htr, List.map_map]
      apply List.map_congr_left
      rintro ⟨⟨ex, ey⟩, o⟩ ha
      have hz := List.of_mem_zip ha
      have hm := List.of_mem_zip hz.1
      obtain ⟨f1, f2, f3⟩ := hF ((ex, ey), o) hm.1 hm.2
      simp only [Function.comp_apply, f1]
      simp only at f2
      rw [← f2, redElt_eq pr o _ _ (fun hp => ⟨by
        have := hmax hp; have := hx.len ex hm.1; simp only; omega, f3 hp, hnonneg o hz.2⟩)]
      rfl
    · rintro ⟨r, e⟩ hr
      obtain ⟨⟨⟨ex, ey⟩, o⟩, ha, hEq⟩ := List.mem_map.mp hr
      have hz := List.of_mem_zip ha
      have hm := List.of_mem_zip hz.1
      obtain ⟨f1, f2, f3⟩ := hF ((ex, ey), o) hm.1 hm.2
      cases hEq
      simp only [f1]
      simp only at f2
      rw [← f2, redElt_eq pr o _ _ (fun hp => ⟨by
        have := hmax hp; have := hx.len ex hm.1; simp only; omega, f3 hp, hnonneg o hz.2⟩)]
      rfl
  have hmaxN : (decide (pr = .max) && (x.hasN && y.hasN)) = false := by
    rw [Bool.and_eq_false_iff, Bool.and_eq_false_iff]
    by_cases h1 : x.hasN = true
    · by_cases h2 : y.hasN = true
      · left; exact decide_eq_false (hP h1 h2).2
      · right; right; simpa using h2
    · right; left; simpa using h1
  have hd := hred (fun a => (weigh a.2 (a.1.1.valid.map (nn cfg.norm a.1.2.valid)
        ++ List.replicate (x.P - a.1.1.len) 0),
       if x.hasN && y.hasN then weigh a.2 (List.zipWith
          (normalTerm zero sim cfg.absCos cfg.norm a.1.2.valid a.1.2.validN) a.1.1.valid a.1.1.validN
          ++ List.replicate (x.P - a.1.1.len) 0) else [])) Prod.fst
      (fun ex ey => ex.valid.map (nn cfg.norm ey.valid)) (by
        rintro ⟨⟨ex, ey⟩, o⟩ h1 h2
        refine ⟨rfl, ?_, ?_⟩
        · have := hx.len ex h1; have := hx.pts ex h1
          simp [Elt.valid]; omega
        · intro _ v hv
          obtain ⟨p, _, rfl⟩ := List.mem_map.mp hv
          unfold nn
          cases hm : (ey.valid.map (pdist cfg.norm p)).min? with
          | none => exact le_refl _
          | some m =>
            obtain ⟨q, _, hq⟩ := List.mem_map.mp (List.min?_eq_some_iff.mp hm).1
            rw [Option.getD_some, ← hq]
            exact pdist_nonneg _ _ _)
  show (if (decide (pr = .max) && (x.hasN && y.hasN)) = true then Except.error Err.assertion else _) = _
  rw [hmaxN]
  simp only [Bool.false_eq_true, if_false]
  show (Except.bind (List.mapM _ _) _) = _
  rw [hd]
  by_cases hN : (x.hasN && y.hasN) = true
  · have hn := hred (fun a => (weigh a.2 (a.1.1.valid.map (nn cfg.norm a.1.2.valid)
        ++ List.replicate (x.P - a.1.1.len) 0),
       if x.hasN && y.hasN then weigh a.2 (List.zipWith
          (normalTerm zero sim cfg.absCos cfg.norm a.1.2.valid a.1.2.validN) a.1.1.valid a.1.1.validN
          ++ List.replicate (x.P - a.1.1.len) 0) else [])) Prod.snd
      (fun ex ey => List.zipWith
          (normalTerm zero sim cfg.absCos cfg.norm ey.valid ey.validN) ex.valid ex.validN) (by
        rintro ⟨⟨ex, ey⟩, o⟩ h1 h2
        refine ⟨by simp only [hN, if_true], ?_, ?_⟩
        · have hb := Bool.and_eq_true_iff.mp hN
          have := hx.len ex h1; have := hx.pts ex h1; have := hx.nrm hb.1 ex h1
          simp [Elt.valid, Elt.validN]; omega
        · intro hp
          have hb := Bool.and_eq_true_iff.mp hN
          exact absurd hp (hP hb.1 hb.2).2)
    show (if (x.hasN && y.hasN) = true then Except.bind (List.mapM _ _) _ else _) = _
    rw [if_pos hN, hn, if_pos hN]
    rfl
  · show (if (x.hasN && y.hasN) = true then _ else _) = _
    rw [if_neg hN, if_neg hN]
    rfl

/-! ### The whole function -/

/-- Reduction over the batch, `ws` being the weight of each element. -/
def batchSpec (br : Option BatchRed) (ws l : List R) : T R :=
  match br with
  | none => .t1 l
  | some .sum => .t0 l.sum
  | some .mean => .t0 (l.sum / if ws = [] then 1 else ws.sum)

theorem batchReduce_eq (br : Option BatchRed) {w : Option (List R)} {N : Nat} (hw : GoodW N w)
    (l : List R) : batchReduce br w N (.t1 l) = batchSpec br (wlist N w) l := by
  cases br with
  | none => rfl
  | some br =>
    cases br with
    | sum => rfl
    | mean =>
      simp only [batchReduce, batchSpec]
      congr 2
      cases w with
      | none =>
        rcases Nat.eq_zero_or_pos N with h | h
        · subst h; simp [wlist]
        · have : wlist N (none : Option (List R)) ≠ [] := by
            rw [wlist, Option.getD_none, ne_eq, List.replicate_eq_nil_iff]; omega
          have hN : Nat.max N 1 = N := Nat.max_eq_left h
          rw [if_neg this]
          simp [wlist, hN]
      | some ws =>
        have h3 := (hw ws rfl).2.2
        have hne : ws ≠ [] := by rintro rfl; simp at h3
        simp [wlist, h3, hne]

theorem zip_swap {α : Type*} (x y : Batch R U) (w : Option (List R)) (hw : GoodW x.elts.length w)
    (hl : y.elts.length = x.elts.length) (f : R → R → α)
    (g h : ((Elt R U × Elt R U) × R) → R) :
    List.zipWith f ((triples x y w).map g) ((triples y x w).map h)
      = (triples x y w).map fun a => f (g a) (h ((a.1.2, a.1.1), a.2)) := by
  unfold triples
  rw [hl]
  have := wlist_length hw
  apply List.ext_getElem
  · simp [hl, this]
  · intro i h1 h2
    simp

/-- Well-formed call: both batches well-formed and of the same size, norm 1 or 2, acceptable weights. -/
structure Call (cfg : Cfg) (x y : Batch R U) (w : Option (List R)) : Prop where
  wfx : x.WF
  wfy : y.WF
  len : y.elts.length = x.elts.length
  norm : cfg.norm = 1 ∨ cfg.norm = 2
  w : GoodW x.elts.length w

theorem Call.symm {cfg : Cfg} {x y : Batch R U} {w : Option (List R)} (h : Call cfg x y w) :
    Call cfg y x w :=
  ⟨h.wfy, h.wfx, h.len.symm, h.norm, by rw [h.len]; exact h.w⟩

theorem WF.notBad {b : Batch R U} (h : b.WF) : b.badLengths = false := by
  unfold Batch.badLengths
  have : (b.elts.any fun e => decide (e.len > b.P)) = false := by
    rw [List.any_eq_false]
    intro e he
    have := h.len e he
    simp; omega
  simp [this]

/-- The value for one pair of elements. -/
def value (cfg : Cfg) (pr : PointRed) (X Y : List (List R)) : R :=
  if cfg.single then oneWay pr cfg.norm X Y else twoWay pr cfg.norm X Y

/-- The normal value for one pair of elements. -/
def valueN (zero : U) (sim : U → U → R) (cfg : Cfg) (pr : PointRed) (x y : Elt R U) : R :=
  if cfg.single then oneWayN zero sim cfg.absCos pr cfg.norm x y
  else oneWayN zero sim cfg.absCos pr cfg.norm x y + oneWayN zero sim cfg.absCos pr cfg.norm y x

/-- **C18 (value).** The loss: per element, weight times the sum (maximum for `"max"`) of the reductions
of the nearest-neighbour distances in the two directions, then reduced over the batch; without
normals on both sides no normal loss, with normals the same reductions of the normal terms. -/
theorem chamfer_value (zero : U) (sim : U → U → R) {cfg : Cfg} {pr : PointRed}
    (hpr : cfg.pointRed = some pr) {x y : Batch R U} {w : Option (List R)} (h : Call cfg x y w)
    (hN : x.hasN = true → y.hasN = true → 0 < x.P ∧ 0 < y.P ∧ pr ≠ .max)
    (hmax : pr = .max → 0 < x.P ∧ 0 < y.P ∧ (x.hasN = true → x.fromCloud = true)
      ∧ (y.hasN = true → y.fromCloud = true)) :
    chamfer zero sim cfg x y w = .ok
      (batchSpec cfg.batchRed (wlist x.elts.length w)
        ((triples x y w).map fun a => a.2 * value cfg pr a.1.1.valid a.1.2.valid),
       if x.hasN && y.hasN then some (batchSpec cfg.batchRed (wlist x.elts.length w)
        ((triples x y w).map fun a => a.2 * valueN zero sim cfg pr a.1.1 a.1.2)) else none) := by
  have d1 := direction_value zero sim hpr h.wfx h.wfy h.len h.w
    (fun a b => ⟨(hN a b).2.1, (hN a b).2.2⟩) (fun a => (hmax a).1)
  have d2 := direction_value zero sim hpr h.wfy h.wfx h.len.symm h.symm.w
    (fun a b => ⟨(hN b a).1, (hN b a).2.2⟩) (fun a => (hmax a).2.1)
  have g1 : ¬ ((cfg.pointRed.isNone && cfg.batchRed.isSome) = true) := by simp [hpr]
  have g3 : ¬ ((decide (cfg.pointRed = some .max) &&
      ((x.hasN && !x.fromCloud) || (y.hasN && !y.fromCloud))) = true) := by
    by_cases hp : pr = .max
    · obtain ⟨_, _, a, b⟩ := hmax hp
      have a' : (x.hasN && !x.fromCloud) = false := by
        cases hx : x.hasN
        · rfl
        · simp [a hx]
      have b' : (y.hasN && !y.fromCloud) = false := by
        cases hy : y.hasN
        · rfl
        · simp [b hy]
      simp [a', b']
    · have : cfg.pointRed ≠ some .max := by rw [hpr]; intro hc; exact hp (Option.some.inj hc)
      simp [this]
  have g4 : ¬ ((x.badLengths || y.badLengths) = true) := by
    simp [WF.notBad h.wfx, WF.notBad h.wfy]
  unfold chamfer
  rw [if_neg g1, if_neg (not_not.mpr h.norm), if_neg g3, if_neg g4, d1]
  by_cases hs : cfg.single = true
  · simp only [hs, if_true]
    by_cases hn : (x.hasN && y.hasN) = true
    · simp only [hn, if_true]
      show Except.ok (_, _) = _
      simp only [Option.map_some, batchReduce_eq _ h.w, value, valueN, hs, if_true]
    · simp only [hn, Bool.false_eq_true, if_false]
      show Except.ok (_, _) = _
      simp only [Option.map_none, batchReduce_eq _ h.w, value, hs, if_true]
  · simp only [hs, Bool.false_eq_true, if_false]
    rw [d2]
    have hn2 : (y.hasN && x.hasN) = (x.hasN && y.hasN) := Bool.and_comm _ _
    rw [hn2]
    by_cases hn : (x.hasN && y.hasN) = true
    · have hb := Bool.and_eq_true_iff.mp hn
      have hpm := (hN hb.1 hb.2).2.2
      simp only [hn, if_true, hpr]
      cases pr with
      | max => exact absurd rfl hpm
      | sum =>
        show Except.ok (_, _) = _
        simp only [Option.map_some, zip_swap x y w h.w h.len, batchReduce_eq _ h.w, value, valueN, hs,
          twoWay, mul_add, Bool.false_eq_true, if_false]
      | mean =>
        show Except.ok (_, _) = _
        simp only [Option.map_some, zip_swap x y w h.w h.len, batchReduce_eq _ h.w, value, valueN, hs,
          twoWay, mul_add, Bool.false_eq_true, if_false]
    · simp only [hn, Bool.false_eq_true, if_false, hpr]
      cases pr with
      | max =>
        show Except.ok (_, _) = _
        simp only [Option.map_none, zip_swap x y w h.w h.len, batchReduce_eq _ h.w, value, hs,
          twoWay, Bool.false_eq_true, if_false]
        congr 3
        apply List.map_congr_left
        intro a ha
        have : 0 ≤ a.2 := wlist_nonneg h.w _ (List.of_mem_zip ha).2
        rw [mul_max_of_nonneg _ _ this]
      | sum =>
        show Except.ok (_, _) = _
        simp only [Option.map_none, zip_swap x y w h.w h.len, batchReduce_eq _ h.w, value, hs,
          twoWay, mul_add, Bool.false_eq_true, if_false]
      | mean =>
        show Except.ok (_, _) = _
        simp only [Option.map_none, zip_swap x y w h.w h.len, batchReduce_eq _ h.w, value, hs,
          twoWay, mul_add, Bool.false_eq_true, if_false]

theorem weigh_eq (o : Option R) (l : List R) : weigh o l = l.map (wval o * ·) := by
  cases o with
  | none => simp [weigh, wval]
  | some v => simp [weigh, wval, mul_comm]

theorem triples_eq (x y : Batch R U) (w : Option (List R)) :
    triples x y w = ((x.elts.zip y.elts).zip (optWeights x.elts.length w)).map
      fun a => (a.1, wval a.2) := by
  have hwv : (optWeights x.elts.length w).map wval = wlist x.elts.length w := by
    cases w with
    | none => simp [optWeights, wlist, wval]
    | some ws => simp [optWeights, wlist, wval, Function.comp_def]
  rw [triples, ← hwv, List.zip_map_right]
  rfl

/-- Per-point distances of one element, padded with zeros. -/
def rowOf (norm P : Nat) (a : (Elt R U × Elt R U) × R) : List R :=
  (a.1.1.valid.map (nn norm a.1.2.valid) ++ List.replicate (P - a.1.1.len) 0).map (a.2 * ·)

theorem direction_rows (zero : U) (sim : U → U → R) {cfg : Cfg} (hpr : cfg.pointRed = none)
    {x y : Batch R U} {w : Option (List R)} (hx : x.WF) (hy : y.WF)
    (hl : y.elts.length = x.elts.length) (hw : GoodW x.elts.length w)
    (hN : (x.hasN && y.hasN) = false) :
    direction zero sim cfg x y w = .ok (.t2 ((triples x y w).map (rowOf cfg.norm x.P)), none) := by
  rw [direction_go hw hl]
  unfold direction.go
  simp only
  rw [rows_eq hx hy fun h1 h2 => by rw [h1, h2] at hN; cases hN]
  simp only [hpr]
  rw [hN]
  show Except.ok (_, _) = _
  have e : (triples x y w).map (rowOf cfg.norm x.P)
      = ((x.elts.zip y.elts).zip (optWeights x.elts.length w)).map fun a =>
        weigh a.2 (a.1.1.valid.map (nn cfg.norm a.1.2.valid) ++ List.replicate (x.P - a.1.1.len) 0) := by
    rw [triples_eq, List.map_map]
    apply List.map_congr_left
    rintro ⟨⟨ex, ey⟩, o⟩ _
    simp only [Function.comp_apply, weigh_eq, rowOf]
  rw [List.map_map, e]
  rfl

/-- **C18 (no reduction).** With `point_reduction=None` the result holds the per-point distances of both
directions, weighted, with zeros at padded positions. -/
theorem chamfer_rows (zero : U) (sim : U → U → R) {cfg : Cfg} (hpr : cfg.pointRed = none)
    (hbr : cfg.batchRed = none) {x y : Batch R U} {w : Option (List R)} (h : Call cfg x y w)
    (hN : (x.hasN && y.hasN) = false) :
    chamfer zero sim cfg x y w = .ok (if cfg.single
      then .t2 ((triples x y w).map (rowOf cfg.norm x.P))
      else .pair ((triples x y w).map (rowOf cfg.norm x.P)) ((triples y x w).map (rowOf cfg.norm y.P)),
      none) := by
  have d1 := direction_rows zero sim hpr h.wfx h.wfy h.len h.w hN
  have d2 := direction_rows zero sim hpr h.wfy h.wfx h.len.symm h.symm.w
    (by rw [Bool.and_comm]; exact hN)
  have g1 : ¬ ((cfg.pointRed.isNone && cfg.batchRed.isSome) = true) := by simp [hbr]
  have g3 : ¬ ((decide (cfg.pointRed = some .max) &&
      ((x.hasN && !x.fromCloud) || (y.hasN && !y.fromCloud))) = true) := by simp [hpr]
  have g4 : ¬ ((x.badLengths || y.badLengths) = true) := by
    simp [WF.notBad h.wfx, WF.notBad h.wfy]
  unfold chamfer
  rw [if_neg g1, if_neg (not_not.mpr h.norm), if_neg g3, if_neg g4, d1]
  by_cases hs : cfg.single = true
  · simp only [hs, if_true]
    show Except.ok (_, _) = _
    simp only [Option.map_none, batchReduce, hbr]
  · simp only [hs, Bool.false_eq_true, if_false]
    rw [d2]
    simp only [hpr]
    show Except.ok (_, _) = _
    simp only [Option.map_none, batchReduce, hbr]

/-! ### Consequences -/

theorem nn_nonneg (norm : Nat) (Y : List (List R)) (p : List R) : 0 ≤ nn norm Y p := by
  unfold nn
  cases hm : (Y.map (pdist norm p)).min? with
  | none => exact le_refl _
  | some m =>
    obtain ⟨q, _, hq⟩ := List.mem_map.mp (List.min?_eq_some_iff.mp hm).1
    rw [Option.getD_some, ← hq]
    exact pdist_nonneg _ _ _

/-- The nearest distance is attained and is a lower bound. -/
theorem nn_spec {norm : Nat} {Y : List (List R)} (hY : Y ≠ []) (p : List R) :
    (∃ q ∈ Y, pdist norm p q = nn norm Y p) ∧ ∀ q ∈ Y, nn norm Y p ≤ pdist norm p q := by
  have hne : Y.map (pdist norm p) ≠ [] := by simpa using hY
  obtain ⟨m, hm⟩ := Option.isSome_iff_exists.mp (List.isSome_min?_of_ne_nil hne)
  have hnn : nn norm Y p = m := by simp [nn, hm]
  obtain ⟨h1, h2⟩ := List.min?_eq_some_iff.mp hm
  obtain ⟨q, hq, e⟩ := List.mem_map.mp h1
  rw [hnn]
  exact ⟨⟨q, hq, e⟩, fun q hq => h2 _ (List.mem_map_of_mem hq)⟩

theorem foldr_max_nonneg (l : List R) : 0 ≤ l.foldr max 0 := by
  induction l with
  | nil => exact le_refl _
  | cons a l ih => exact le_max_of_le_right ih

theorem le_foldr_max {l : List R} {a : R} (h : a ∈ l) : a ≤ l.foldr max 0 := by
  induction l with
  | nil => simp at h
  | cons b l ih =>
    rcases List.mem_cons.mp h with rfl | h
    · exact le_max_left _ _
    · exact le_max_of_le_right (ih h)

theorem reduce_nonneg (pr : PointRed) {l : List R} (h : ∀ a ∈ l, 0 ≤ a) : 0 ≤ reduce pr l := by
  cases pr with
  | sum => exact List.sum_nonneg h
  | mean => exact div_nonneg (List.sum_nonneg h) (Nat.cast_nonneg _)
  | max => exact foldr_max_nonneg l

theorem oneWay_nonneg (pr : PointRed) (norm : Nat) (X Y : List (List R)) : 0 ≤ oneWay pr norm X Y := by
  apply reduce_nonneg
  intro a ha
  obtain ⟨p, _, rfl⟩ := List.mem_map.mp ha
  exact nn_nonneg _ _ _

theorem value_nonneg (cfg : Cfg) (pr : PointRed) (X Y : List (List R)) : 0 ≤ value cfg pr X Y := by
  unfold value
  split
  · exact oneWay_nonneg ..
  · cases pr with
    | max => exact le_max_of_le_left (oneWay_nonneg ..)
    | sum => exact add_nonneg (oneWay_nonneg ..) (oneWay_nonneg ..)
    | mean => exact add_nonneg (oneWay_nonneg ..) (oneWay_nonneg ..)

/-- All entries of a result are non-negative. -/
def T.Nonneg : T R → Prop
  | .t0 x => 0 ≤ x
  | .t1 l => ∀ a ∈ l, 0 ≤ a
  | .t2 l => ∀ r ∈ l, ∀ a ∈ r, 0 ≤ a
  | .pair a b => (∀ r ∈ a, ∀ v ∈ r, 0 ≤ v) ∧ ∀ r ∈ b, ∀ v ∈ r, 0 ≤ v

/-- All entries of a result are zero. -/
def T.IsZero : T R → Prop
  | .t0 x => x = 0
  | .t1 l => ∀ a ∈ l, a = 0
  | .t2 l => ∀ r ∈ l, ∀ a ∈ r, a = 0
  | .pair a b => (∀ r ∈ a, ∀ v ∈ r, v = 0) ∧ ∀ r ∈ b, ∀ v ∈ r, v = 0

theorem batchSpec_nonneg (br : Option BatchRed) {ws l : List R} (hw : ∀ a ∈ ws, 0 ≤ a)
    (hl : ∀ a ∈ l, 0 ≤ a) : (batchSpec br ws l).Nonneg := by
  cases br with
  | none => exact hl
  | some br =>
    cases br with
    | sum => exact List.sum_nonneg hl
    | mean =>
      refine div_nonneg (List.sum_nonneg hl) ?_
      split
      · exact zero_le_one
      · exact List.sum_nonneg hw

theorem batchSpec_zero (br : Option BatchRed) {ws l : List R} (hl : ∀ a ∈ l, a = 0) :
    (batchSpec br ws l).IsZero := by
  cases br with
  | none => exact hl
  | some br =>
    cases br with
    | sum => exact List.sum_eq_zero hl
    | mean => show _ / _ = 0; rw [List.sum_eq_zero hl, zero_div]

/-- Calls without normals on both sides, with a point reduction. -/
structure Plain (cfg : Cfg) (pr : PointRed) (x y : Batch R U) (w : Option (List R)) : Prop
    extends Call cfg x y w where
  hpr : cfg.pointRed = some pr
  hN : (x.hasN && y.hasN) = false
  hmax : pr = .max → 0 < x.P ∧ 0 < y.P ∧ (x.hasN = true → x.fromCloud = true)
      ∧ (y.hasN = true → y.fromCloud = true)

theorem Plain.value {zero : U} {sim : U → U → R} {cfg : Cfg} {pr : PointRed} {x y : Batch R U}
    {w : Option (List R)} (h : Plain cfg pr x y w) :
    chamfer zero sim cfg x y w = .ok
      (batchSpec cfg.batchRed (wlist x.elts.length w)
        ((triples x y w).map fun a => a.2 * Chamfer.value cfg pr a.1.1.valid a.1.2.valid), none) := by
  rw [chamfer_value zero sim h.hpr h.toCall ?_ h.hmax, h.hN]
  · rfl
  · intro a b
    have := h.hN
    rw [a, b] at this
    cases this

/-- **C18 (non-negative).** -/
theorem chamfer_nonneg (zero : U) (sim : U → U → R) {cfg : Cfg} {pr : PointRed} {x y : Batch R U}
    {w : Option (List R)} (h : Plain cfg pr x y w) :
    ∃ t, chamfer zero sim cfg x y w = .ok (t, none) ∧ t.Nonneg := by
  refine ⟨_, h.value, batchSpec_nonneg _ (wlist_nonneg h.w) ?_⟩
  intro a ha
  obtain ⟨b, hb, rfl⟩ := List.mem_map.mp ha
  exact mul_nonneg (wlist_nonneg h.w _ (List.of_mem_zip hb).2) (value_nonneg ..)

theorem twoWay_comm (pr : PointRed) (norm : Nat) (X Y : List (List R)) :
    twoWay pr norm X Y = twoWay pr norm Y X := by
  cases pr with
  | max => exact max_comm _ _
  | sum => exact add_comm _ _
  | mean => exact add_comm _ _

/-- **C18 (symmetric).** Swapping the two batches does not change a two-directional result. -/
theorem chamfer_symm (zero : U) (sim : U → U → R) {cfg : Cfg} {pr : PointRed} {x y : Batch R U}
    {w : Option (List R)} (h : Plain cfg pr x y w) (hs : cfg.single = false) :
    chamfer zero sim cfg y x w = chamfer zero sim cfg x y w := by
  have h' : Plain cfg pr y x w :=
    { toCall := h.toCall.symm, hpr := h.hpr, hN := by rw [Bool.and_comm]; exact h.hN,
      hmax := fun a => ⟨(h.hmax a).2.1, (h.hmax a).1, (h.hmax a).2.2.2, (h.hmax a).2.2.1⟩ }
  rw [h.value, h'.value, h.len]
  congr 3
  unfold triples
  rw [h.len]
  apply List.ext_getElem
  · simp [h.len]
  · intro i h1 h2
    simp only [List.getElem_map, List.getElem_zip, Chamfer.value, hs, Bool.false_eq_true, if_false]
    rw [twoWay_comm]

/-- Two batches with the same points, up to order within each element (padding, padded size and
origin may differ). -/
def SamePoints (x x' : Batch R U) : Prop :=
  List.Forall₂ (fun e e' => e.valid.Perm e'.valid) x.elts x'.elts

theorem reduce_perm (pr : PointRed) {l l' : List R} (h : l.Perm l') : reduce pr l = reduce pr l' := by
  cases pr with
  | sum => exact h.sum_eq
  | mean => simp only [reduce]; rw [h.sum_eq, h.length_eq]
  | max =>
    simp only [reduce]
    have : LeftCommutative (α := R) (β := R) max := ⟨fun a b c => max_left_comm a b c⟩
    exact h.foldr_eq 0

theorem nn_perm (norm : Nat) {Y Y' : List (List R)} (h : Y.Perm Y') (p : List R) :
    nn norm Y p = nn norm Y' p := by
  by_cases h0 : Y = []
  · subst h0; rw [h.nil_eq]
  · have h0' : Y' ≠ [] := by rintro rfl; exact h0 h.eq_nil
    obtain ⟨⟨q, hq, e⟩, l⟩ := nn_spec (norm := norm) h0 p
    obtain ⟨⟨q', hq', e'⟩, l'⟩ := nn_spec (norm := norm) h0' p
    apply le_antisymm
    · rw [← e']; exact l q' (h.mem_iff.mpr hq')
    · rw [← e]; exact l' q (h.mem_iff.mp hq)

theorem oneWay_perm (pr : PointRed) (norm : Nat) {X X' Y Y' : List (List R)} (hX : X.Perm X')
    (hY : Y.Perm Y') : oneWay pr norm X Y = oneWay pr norm X' Y' := by
  unfold oneWay
  have : X.map (nn norm Y) = X.map (nn norm Y') := List.map_congr_left fun p _ => nn_perm norm hY p
  rw [this]
  exact reduce_perm pr (hX.map _)

theorem value_perm (cfg : Cfg) (pr : PointRed) {X X' Y Y' : List (List R)} (hX : X.Perm X')
    (hY : Y.Perm Y') : value cfg pr X Y = value cfg pr X' Y' := by
  unfold value
  cases pr <;> simp only [twoWay, oneWay_perm _ cfg.norm hX hY, oneWay_perm _ cfg.norm hY hX]

/-- **C18 (permutation and padding).** The result depends only on the points of each element up to
their order: not on padded entries, not on the padded size, not on how the batch was given. -/
theorem chamfer_samePoints (zero : U) (sim : U → U → R) {cfg : Cfg} {pr : PointRed}
    {x y x' y' : Batch R U} {w : Option (List R)} (h : Plain cfg pr x y w) (h' : Plain cfg pr x' y' w)
    (hx : SamePoints x x') (hy : SamePoints y y') :
    chamfer zero sim cfg x y w = chamfer zero sim cfg x' y' w := by
  have hlx := hx.length_eq
  have hly := hy.length_eq
  rw [h.value, h'.value, ← hlx]
  congr 3
  unfold triples
  rw [← hlx]
  apply List.ext_getElem
  · simp [hlx, hly]
  · intro i h1 h2
    have hwl := wlist_length h.w
    simp only [List.length_map, List.length_zip] at h1 h2
    have e1 : x.elts[i].valid.Perm x'.elts[i].valid := hx.get (by omega) (by omega)
    have e2 : y.elts[i].valid.Perm y'.elts[i].valid := hy.get (by omega) (by omega)
    simp [value_perm cfg pr e1 e2]

theorem pdist_self (norm : Nat) (p : List R) : pdist norm p p = 0 := by
  unfold pdist
  have : ∀ (l : List R), (l.zip l).foldl (fun acc xy => acc + coordDist norm xy.1 xy.2) (0:R) = 0 := by
    intro l
    induction l with
    | nil => rfl
    | cons a l ih =>
      have : coordDist norm a a = 0 := by unfold coordDist; split <;> simp
      simpa [this] using ih
  exact this p

theorem foldl_ge (norm : Nat) (l : List (R × R)) (a : R) :
    a ≤ l.foldl (fun acc xy => acc + coordDist norm xy.1 xy.2) a := by
  induction l generalizing a with
  | nil => exact le_refl _
  | cons z l ih =>
    refine le_trans ?_ (ih _)
    have : 0 ≤ coordDist norm z.1 z.2 := by
      unfold coordDist
      split
      · exact abs_nonneg _
      · exact mul_self_nonneg _
    linarith

theorem pdist_eq_zero {norm : Nat} {p q : List R} (hl : p.length = q.length) (h : pdist norm p q = 0) :
    p = q := by
  unfold pdist at h
  induction p generalizing q with
  | nil => exact (List.length_eq_zero_iff.mp hl.symm).symm
  | cons a p ih =>
    cases q with
    | nil => simp at hl
    | cons b q =>
      simp only [List.zip_cons_cons, List.foldl_cons, zero_add] at h
      have h0 : 0 ≤ coordDist norm a b := by
        unfold coordDist
        split
        · exact abs_nonneg _
        · exact mul_self_nonneg _
      have h1 := foldl_ge norm (p.zip q) (coordDist norm a b)
      have h2 : coordDist norm a b = 0 := le_antisymm (by linarith) h0
      rw [h2] at h
      have hab : a = b := by
        unfold coordDist at h2
        split at h2
        · exact sub_eq_zero.mp (abs_eq_zero.mp h2)
        · exact sub_eq_zero.mp (mul_self_eq_zero.mp h2)
      rw [hab, ih (by simpa using hl) h]

theorem nn_eq_zero_of_mem (norm : Nat) {Y : List (List R)} {p : List R} (h : p ∈ Y) :
    nn norm Y p = 0 := by
  have hY : Y ≠ [] := by rintro rfl; simp at h
  apply le_antisymm _ (nn_nonneg _ _ _)
  rw [← pdist_self norm p]
  exact (nn_spec hY p).2 p h

theorem reduce_zero (pr : PointRed) {l : List R} (h : ∀ a ∈ l, a = 0) : reduce pr l = 0 := by
  cases pr with
  | sum => exact List.sum_eq_zero h
  | mean => simp only [reduce]; rw [List.sum_eq_zero h, zero_div]
  | max =>
    simp only [reduce]
    induction l with
    | nil => rfl
    | cons a l ih =>
      rw [List.foldr_cons, ih fun b hb => h b (by simp [hb]), h a (by simp), max_self]

theorem zero_of_reduce (pr : PointRed) {l : List R} (h0 : ∀ a ∈ l, 0 ≤ a) (h : reduce pr l = 0) :
    ∀ a ∈ l, a = 0 := by
  intro a ha
  have hsum : l.sum = 0 → a = 0 := by
    intro hs
    apply le_antisymm _ (h0 a ha)
    rw [← hs]
    exact List.single_le_sum h0 a ha
  cases pr with
  | sum => exact hsum h
  | mean =>
    simp only [reduce] at h
    rcases div_eq_zero_iff.mp h with h | h
    · exact hsum h
    · have : 0 < Nat.max l.length 1 := Nat.lt_of_lt_of_le Nat.one_pos (Nat.le_max_right _ _)
      exact absurd h (Nat.cast_ne_zero.mpr (Nat.pos_iff_ne_zero.mp this))
  | max => exact le_antisymm (by rw [← h]; exact le_foldr_max ha) (h0 a ha)

/-- One direction vanishes exactly if every point of `X` occurs in `Y` (or `Y` is empty). -/
theorem oneWay_eq_zero_iff {pr : PointRed} {norm D : Nat} {X Y : List (List R)}
    (hX : ∀ p ∈ X, p.length = D) (hYD : ∀ p ∈ Y, p.length = D) (hY : Y ≠ []) :
    oneWay pr norm X Y = 0 ↔ X ⊆ Y := by
  constructor
  · intro h p hp
    have := zero_of_reduce pr (l := X.map (nn norm Y)) (by
      intro a ha; obtain ⟨q, _, rfl⟩ := List.mem_map.mp ha; exact nn_nonneg _ _ _) h
      (nn norm Y p) (List.mem_map_of_mem hp)
    obtain ⟨q, hq, e⟩ := (nn_spec hY p).1
    rw [this] at e
    rw [pdist_eq_zero (by rw [hX p hp, hYD q hq]) e]
    exact hq
  · intro h
    apply reduce_zero
    intro a ha
    obtain ⟨p, hp, rfl⟩ := List.mem_map.mp ha
    exact nn_eq_zero_of_mem norm (h hp)

/-- Both directions vanish exactly if the two clouds are the same set of points. -/
theorem twoWay_eq_zero_iff {pr : PointRed} {norm D : Nat} {X Y : List (List R)}
    (hX : ∀ p ∈ X, p.length = D) (hY : ∀ p ∈ Y, p.length = D) (hX0 : X ≠ []) (hY0 : Y ≠ []) :
    twoWay pr norm X Y = 0 ↔ ∀ p, p ∈ X ↔ p ∈ Y := by
  have a := oneWay_nonneg pr norm X Y
  have b := oneWay_nonneg pr norm Y X
  have key : (oneWay pr norm X Y = 0 ∧ oneWay pr norm Y X = 0) ↔ ∀ p, p ∈ X ↔ p ∈ Y := by
    rw [oneWay_eq_zero_iff hX hY hY0, oneWay_eq_zero_iff hY hX hX0]
    exact ⟨fun h p => ⟨fun hp => h.1 hp, fun hp => h.2 hp⟩,
      fun h => ⟨fun p hp => (h p).mp hp, fun p hp => (h p).mpr hp⟩⟩
  rw [← key]
  have add : oneWay pr norm X Y + oneWay pr norm Y X = 0 ↔
      (oneWay pr norm X Y = 0 ∧ oneWay pr norm Y X = 0) :=
    ⟨fun h => ⟨by linarith, by linarith⟩, fun h => by rw [h.1, h.2, add_zero]⟩
  cases pr with
  | sum => exact add
  | mean => exact add
  | max =>
    refine ⟨fun h => ⟨le_antisymm (h ▸ le_max_left _ _) a, le_antisymm (h ▸ le_max_right _ _) b⟩,
      fun h => ?_⟩
    show max _ _ = 0
    rw [h.1, h.2, max_self]

/-- **C18 (zero on equal sets).** If each element of `y` has the same set of points as the
corresponding element of `x` (with any multiplicities and order), every entry of the result is 0. -/
theorem chamfer_zero (zero : U) (sim : U → U → R) {cfg : Cfg} {pr : PointRed} {x y : Batch R U}
    {w : Option (List R)} (h : Plain cfg pr x y w)
    (hs : List.Forall₂ (fun e e' => ∀ p, p ∈ e.valid ↔ p ∈ e'.valid) x.elts y.elts) :
    ∃ t, chamfer zero sim cfg x y w = .ok (t, none) ∧ t.IsZero := by
  refine ⟨_, h.value, batchSpec_zero _ ?_⟩
  intro a ha
  obtain ⟨⟨⟨ex, ey⟩, v⟩, hb, rfl⟩ := List.mem_map.mp ha
  have hz := (List.of_mem_zip hb).1
  have hset : ∀ p, p ∈ ex.valid ↔ p ∈ ey.valid := by
    have := List.forall₂_iff_zip.mp hs
    exact this.2 hz
  have o1 : ∀ pr, oneWay pr cfg.norm ex.valid ey.valid = 0 := fun pr => reduce_zero pr (by
    intro a ha
    obtain ⟨p, hp, rfl⟩ := List.mem_map.mp ha
    exact nn_eq_zero_of_mem _ ((hset p).mp hp))
  have o2 : ∀ pr, oneWay pr cfg.norm ey.valid ex.valid = 0 := fun pr => reduce_zero pr (by
    intro a ha
    obtain ⟨p, hp, rfl⟩ := List.mem_map.mp ha
    exact nn_eq_zero_of_mem _ ((hset p).mpr hp))
  have : Chamfer.value cfg pr ex.valid ey.valid = 0 := by
    unfold Chamfer.value
    cases pr <;> simp [twoWay, o1, o2]
  simp [this]

/-- **C18 (empty target).** A cloud without points on the other side contributes 0, not infinity. -/
theorem oneWay_empty (pr : PointRed) (norm : Nat) (X : List (List R)) : oneWay pr norm X [] = 0 :=
  reduce_zero pr (by
    intro a ha
    obtain ⟨p, _, rfl⟩ := List.mem_map.mp ha
    simp [nn])

/-- **C18 (all-zero weights).** With weights summing to zero and a point reduction the result is zero
for every input: a scalar 0 for a batch reduction, an (N, N) matrix of zeros (instead of N values)
without one; and the normal loss is not None even if there are no normals. -/
theorem chamfer_zero_weights (zero : U) (sim : U → U → R) {cfg : Cfg} {pr : PointRed} {x y : Batch R U}
    (hpr : cfg.pointRed = some pr) (hm : pr ≠ .max) {ws : List R}
    (hx : x.WF) (hy : y.WF) (hl : y.elts.length = x.elts.length) (hn : cfg.norm = 1 ∨ cfg.norm = 2)
    (h1 : ws.length = x.elts.length) (h2 : ∀ v ∈ ws, 0 ≤ v) (h3 : ws.sum = 0) :
    chamfer zero sim cfg x y (some ws) = .ok (match cfg.batchRed with
      | none => (.t2 (List.replicate x.elts.length (List.replicate x.elts.length 0)),
          some (.t2 (List.replicate x.elts.length (List.replicate x.elts.length 0))))
      | some _ => (.t0 0, some (.t0 0))) := by
  have hall : (ws.all fun v => decide (v ≥ 0)) = true := by
    rw [List.all_eq_true]; intro v hv; exact decide_eq_true (h2 v hv)
  have d1 : direction zero sim cfg x y (some ws)
      = .ok (.t2 (List.replicate x.elts.length (List.replicate x.elts.length 0)),
          some (.t2 (List.replicate x.elts.length (List.replicate x.elts.length 0)))) := by
    unfold direction
    simp only [ne_eq, hl, h1, not_true_eq_false, if_false, hall, h3, if_true]
  have d2 : direction zero sim cfg y x (some ws)
      = .ok (.t2 (List.replicate x.elts.length (List.replicate x.elts.length 0)),
          some (.t2 (List.replicate x.elts.length (List.replicate x.elts.length 0)))) := by
    unfold direction
    simp only [ne_eq, hl, h1, not_true_eq_false, if_false, hall, h3, if_true]
  have g1 : ¬ ((cfg.pointRed.isNone && cfg.batchRed.isSome) = true) := by simp [hpr]
  have g3 : ¬ ((decide (cfg.pointRed = some .max) &&
      ((x.hasN && !x.fromCloud) || (y.hasN && !y.fromCloud))) = true) := by
    have : cfg.pointRed ≠ some .max := by rw [hpr]; intro hc; exact hm (Option.some.inj hc)
    simp [this]
  have g4 : ¬ ((x.badLengths || y.badLengths) = true) := by
    simp [WF.notBad hx, WF.notBad hy]
  have hz : ∀ N : Nat, List.zipWith (List.zipWith (fun a b : R => a + b))
      (List.replicate N (List.replicate N 0)) (List.replicate N (List.replicate N 0))
        = List.replicate N (List.replicate N 0) := by
    intro N
    rw [List.zipWith_replicate, List.zipWith_replicate]; simp
  have hs : ∀ N : Nat, ((List.replicate N (List.replicate N (0:R))).map List.sum).sum = 0 := by
    intro N; simp
  unfold chamfer
  rw [if_neg g1, if_neg (not_not.mpr hn), if_neg g3, if_neg g4, d1]
  have fin : ∀ N : Nat, (Except.ok (batchReduce cfg.batchRed (some ws) x.elts.length
        (.t2 (List.replicate N (List.replicate N (0:R)))),
      (some (T.t2 (List.replicate N (List.replicate N (0:R))))).map
        (batchReduce cfg.batchRed (some ws) x.elts.length)) : Except Err _)
      = .ok (match cfg.batchRed with
      | none => (.t2 (List.replicate N (List.replicate N 0)), some (.t2 (List.replicate N (List.replicate N 0))))
      | some _ => (.t0 0, some (.t0 0))) := by
    intro N
    cases cfg.batchRed with
    | none => rfl
    | some br =>
      cases br with
      | sum => simp [batchReduce]
      | mean => simp [batchReduce]
  by_cases hsg : cfg.single = true
  · simp only [hsg, if_true]
    exact fin _
  · simp only [hsg, Bool.false_eq_true, if_false]
    rw [d2]
    simp only [hpr]
    cases pr with
    | max => exact absurd rfl hm
    | sum =>
      show Except.ok (_, _) = _
      simp only [hz]
      exact fin _
    | mean =>
      show Except.ok (_, _) = _
      simp only [hz]
      exact fin _

/-- **C18 (normals, range).** With a cosine similarity in [-1, 1] each normal term is in [0, 2], and in
[0, 1] with `abs_cosine`. -/
theorem normalTerm_range (zero : U) {sim : U → U → R} (hsim : ∀ a b, |sim a b| ≤ 1) (abs : Bool)
    (norm : Nat) (Y : List (List R)) (NY : List U) (p : List R) (n : U) :
    0 ≤ normalTerm zero sim abs norm Y NY p n ∧
      normalTerm zero sim abs norm Y NY p n ≤ if abs then 1 else 2 := by
  unfold normalTerm
  simp only
  generalize (if Y = [] then zero else NY.getD (nnIdx norm Y p) zero) = m
  have h := hsim n m
  cases abs
  · have := abs_le.mp h
    simp only [Bool.false_eq_true, if_false]
    constructor <;> linarith
  · simp only [if_true]
    have := abs_nonneg (sim n m)
    constructor <;> linarith

/-- **C18 (errors).** Bad norms, bad batch sizes, negative weights, wrong numbers of weights, and a
batch reduction without a point reduction raise a ValueError. -/
theorem chamfer_errors (zero : U) (sim : U → U → R) (cfg : Cfg) (x y : Batch R U)
    (w : Option (List R))
    (h : (cfg.norm ≠ 1 ∧ cfg.norm ≠ 2) ∨ (cfg.pointRed = none ∧ cfg.batchRed ≠ none)
      ∨ y.elts.length ≠ x.elts.length
      ∨ ∃ ws, w = some ws ∧ (ws.length ≠ x.elts.length ∨ ∃ v ∈ ws, v < 0)) :
    chamfer zero sim cfg x y w = .error .value := by
  unfold chamfer
  by_cases g1 : (cfg.pointRed.isNone && cfg.batchRed.isSome) = true
  · rw [if_pos g1]
  rw [if_neg g1]
  by_cases g2 : cfg.norm = 1 ∨ cfg.norm = 2
  swap
  · rw [if_pos g2]
  rw [if_neg (not_not.mpr g2)]
  by_cases g3 : (decide (cfg.pointRed = some .max) &&
      ((x.hasN && !x.fromCloud) || (y.hasN && !y.fromCloud))) = true
  · rw [if_pos g3]
  rw [if_neg g3]
  by_cases g4 : (x.badLengths || y.badLengths) = true
  · rw [if_pos g4]
  rw [if_neg g4]
  have hd : direction zero sim cfg x y w = .error .value := by
    rcases h with h | h | h | h
    · exact absurd g2 (by tauto)
    · exfalso
      apply g1
      rw [h.1]
      cases hb : cfg.batchRed with
      | none => exact absurd hb h.2
      | some _ => rfl
    · unfold direction
      simp only [ne_eq, h, not_false_eq_true, if_true]
    · obtain ⟨ws, rfl, h⟩ := h
      unfold direction
      by_cases hl : y.elts.length = x.elts.length
      · by_cases hw : ws.length = x.elts.length
        · obtain ⟨v, hv, hv0⟩ := h.resolve_left (fun hc => hc hw)
          have hall : (ws.all fun v => decide (v ≥ 0)) = false := by
            rw [List.all_eq_false]
            exact ⟨v, hv, by simpa using hv0⟩
          simp [hl, hw, hall]
        · simp [hl, hw]
      · simp [hl]
  rw [hd]
  rfl

/-! ### Examples -/

section Examples

/-- Two elements; the second is padded with a point far away. -/
def exX : Batch ℚ Unit := ⟨2, [⟨[[0, 0], [1, 0]], 2, []⟩, ⟨[[3, 0], [100, 7]], 1, []⟩], false, false⟩
def exY : Batch ℚ Unit := ⟨3, [⟨[[0, 1], [2, 0], [2, 2]], 3, []⟩, ⟨[[3, 4], [0, 0], [9, 9]], 2, []⟩], false, false⟩
def exCfg : Cfg := ⟨some .mean, some .mean, 2, false, true⟩

theorem exPlain : Plain exCfg .mean exX exY (some [1, 3]) where
  wfx := ⟨by decide, by decide, by decide⟩
  wfy := ⟨by decide, by decide, by decide⟩
  len := rfl
  norm := Or.inr rfl
  w := by
    intro ws h
    cases h
    exact ⟨rfl, by decide +kernel, by decide +kernel⟩
  hpr := rfl
  hN := rfl
  hmax := by intro h; cases h

-- ((1+1)/2 + (1+1+5)/3) = 10/3; (9 + (16+9)/2) = 43/2; (1*10/3 + 3*43/2)/4
example : chamfer () (fun _ _ => 0) exCfg exX exY (some [1, 3]) = .ok (.t0 (407/24), none) := by
  rw [exPlain.value]; decide +kernel
example : chamfer () (fun _ _ => 0) exCfg exY exX (some [1, 3]) = .ok (.t0 (407/24), none) := by
  rw [chamfer_symm () _ exPlain rfl, exPlain.value]; decide +kernel
example : ∃ t, chamfer () (fun _ _ => 0) exCfg exX exY (some [1, 3]) = .ok (t, none) ∧ t.Nonneg :=
  chamfer_nonneg () _ exPlain
example : oneWay .max 1 [[(0:ℚ), 0], [1, 5]] [[0, 1]] = 5 := by decide +kernel
example : twoWay .sum 2 [[(0:ℚ)], [1], [1]] [[1], [0]] = 0 :=
  (twoWay_eq_zero_iff (D := 1) (by decide) (by decide) (by decide) (by decide)).mpr
    (fun p => by simp; tauto)
-- the nearest point in a cloud, and the position used for its normal
example : nn 2 [[(0:ℚ), 1], [2, 0], [0, -1]] [0, 0] = 1
    ∧ nnIdx 2 [[(0:ℚ), 1], [2, 0], [0, -1]] [0, 0] = 0 := by decide +kernel
example : chamfer () (fun _ _ => 0) exCfg exX exY (some [0, 0]) = .ok (.t0 0, some (.t0 0)) :=
  chamfer_zero_weights () _ rfl (by decide) ⟨by decide, by decide, by decide⟩
    ⟨by decide, by decide, by decide⟩ rfl (Or.inr rfl) rfl (by decide +kernel) (by decide +kernel)
example : chamfer () (fun _ _ => 0) exCfg exX exY (some [-1, 2]) = .error .value :=
  chamfer_errors () _ _ _ _ _ (Or.inr (Or.inr (Or.inr ⟨_, rfl, Or.inr ⟨-1, by simp, by decide +kernel⟩⟩)))

example : chamfer () (fun _ _ => 0) ⟨none, none, 2, true, true⟩ exX exY none
    = .ok (.t2 [[1, 1], [9, 0]], none) := by
  rw [chamfer_rows (x := exX) (y := exY) (w := none) () _ rfl rfl
    ⟨exPlain.wfx, exPlain.wfy, rfl, Or.inr rfl, fun _ h => by cases h⟩ rfl]
  decide +kernel

/-- With normals (one-dimensional "directions" ±1 compared by their product). -/
def exNX : Batch ℚ ℚ := ⟨2, [⟨[[0], [5]], 2, [1, -1]⟩], true, false⟩
def exNY : Batch ℚ ℚ := ⟨1, [⟨[[1]], 1, [1]⟩], true, false⟩

-- forward terms 0 and 2, backward term 0
example : chamfer 0 (fun a b => a * b) ⟨none, some .sum, 2, false, false⟩ exNX exNY none
    = .ok (.t1 [18], some (.t1 [2])) := by
  rw [chamfer_value (pr := .sum) (x := exNX) (y := exNY) (w := none) 0 _ rfl
    ⟨⟨by decide, by decide, by decide⟩, ⟨by decide, by decide, by decide⟩, rfl, Or.inr rfl,
      fun _ h => by cases h⟩
    (fun _ _ => ⟨by decide, by decide, by decide⟩) (fun h => by cases h)]
  decide +kernel

end Examples

end P3D.Chamfer
