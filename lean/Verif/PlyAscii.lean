/-
Proofs about `PlyIo`: ascii files.
-/
import Verif.PlyLoad

set_option linter.unusedSectionVars false
set_option linter.unusedSimpArgs false

namespace P3D.Ply
open Text Obj

/-! ## Specification -/

/-- The words `ws` of a line are a value of a property. The numbers of tables without lists have the type of the property,
those beside lists are Python numbers. -/
def TextItem (fixed : Bool) (p : Property) (ws : List Str) (it : Item ℚ) : Prop :=
  match p.lst, it with
  | none, .num x => ∃ w, ws = [w] ∧ if fixed then conv p.ty w = some x
      else if p.tname = cs"double" ∨ p.tname = cs"float" then (parseFloat w).map Flt.f64 = some x
      else (parseInt w).map (fun z : Int => (z : ℚ)) = some x
  | some _, .list vs => ∃ w us, ws = w :: us ∧ parseInt w = some (vs.length : Int) ∧
      List.Forall₂ (fun u x => conv p.ty u = some x) us vs ∧ (p.ty.isFloat = true → vs.length ≤ 2 ^ 24)
  | _, _ => False

/-- The words of a line are a row of a table. -/
def TextRow (fixed : Bool) : List Property → List Str → List (Item ℚ) → Prop
  | [], ws, [] => ws = []
  | p :: ps, ws, it :: its => ∃ a b, ws = a ++ b ∧ TextItem fixed p a it ∧ TextRow fixed ps b its
  | _, _, _ => False

/-! ## Numbers -/

theorem parseInt_float {w : Str} {z : Int} (h : parseInt w = some z) : parseFloat w = some (z : ℚ) := by
  unfold parseInt at h
  rw [Option.map_eq_some_iff] at h
  obtain ⟨n, hn, rfl⟩ := h
  unfold parseNat at hn
  split_ifs at hn with hd
  cases hn
  obtain ⟨t1, t2⟩ := takeWhile_digits (s := (sign w).2) (t := []) hd.2 (by simp)
  rw [List.append_nil] at t1 t2
  unfold parseFloat
  simp only [t1, t2]
  have : fracPart [] = ([], []) := rfl
  rw [this]
  simp only [expPart, Option.map_some]
  rw [if_neg (fun h => hd.1 h.1)]
  unfold signed
  rw [List.append_nil]
  split_ifs <;> simp

theorem f64_int {z : Int} (h : |z| < 2 ^ 53) : Flt.f64 (z : ℚ) = z := Flt.fl_id ⟨z, 0, by norm_num, h, by simp⟩

theorem f32_int {z : Int} (h : |z| ≤ 2 ^ 24) : Flt.f32 (z : ℚ) = z := Flt.fl_id (Flt.rep_int h)

theorem trunc_int (z : Int) : Off.trunc (z : ℚ) = z := by
  unfold Off.trunc
  split_ifs <;> simp

theorem ty_bound {t : Ty} {z : Int} (h1 : t.lo ≤ z) (h2 : z < t.hi) (hf : t.isFloat = false) : |z| < 2 ^ 53 := by
  rw [abs_lt]
  cases t <;> simp only [Ty.isFloat, Ty.lo, Ty.hi, Ty.isSigned, Ty.size, if_true, if_false, Bool.false_eq_true, reduceCtorEq] at * <;>
    norm_num at * <;> omega

theorem astype_int {t : Ty} {z : Int} (h1 : t.lo ≤ z) (h2 : z < t.hi) (hf : t.isFloat = false) : astype t (z : ℚ) = some (z : ℚ) := by
  cases t <;> simp_all [Ty.isFloat, astype, trunc_int]

/-- A number read by `np.loadtxt` is the one read with `float` and then converted. -/
theorem conv_float {t : Ty} {w : Str} {x : ℚ} (h : conv t w = some x) :
    ∃ q, parseFloat w = some q ∧ astype t (Flt.f64 q) = some x := by
  unfold conv at h
  split_ifs at h with hf
  · rw [Option.bind_eq_some_iff] at h
    exact h
  · rw [Option.bind_eq_some_iff] at h
    obtain ⟨z, hz, h⟩ := h
    split_ifs at h with hb
    cases h
    have hf' : t.isFloat = false := by simpa using hf
    exact ⟨z, parseInt_float hz, by rw [f64_int (ty_bound hb.1 hb.2 hf'), astype_int hb.1 hb.2 hf']⟩

/-- The length of a list read as a number of the type of its values. -/
theorem conv_length {t : Ty} {w : Str} {n : Nat} {x : ℚ} (h : conv t w = some x) (hw : parseInt w = some (n : Int))
    (hn : t.isFloat = true → n ≤ 2 ^ 24) : x = n := by
  unfold conv at h
  split_ifs at h with hf
  · have hn := hn hf
    rw [parseInt_float hw] at h
    simp only [Option.bind_some] at h
    have hb : |(n : Int)| ≤ 2 ^ 24 := by rw [abs_of_nonneg (by omega)]; exact_mod_cast hn
    rw [f64_int (lt_of_le_of_lt hb (by norm_num))] at h
    cases t <;> simp [Ty.isFloat] at hf
    · simp only [astype, Option.some.injEq] at h
      rw [← h, f32_int hb]
      simp
    · simp only [astype, Option.some.injEq] at h
      rw [← h]
      simp
  · rw [hw] at h
    simp only [Option.bind_some] at h
    split_ifs at h
    cases h
    simp

/-! ## Lines -/

theorem loadRows_ok {cv : Str → Option ℚ} {ls : List Str} {vss : List (List ℚ)}
    (h : List.Forall₂ (fun l v => v ≠ [] ∧ (words l).mapM cv = some v) ls vss) {c : Nat} (hc : ∀ v ∈ vss, v.length = c)
    {co : Option Nat} (hco : ∀ d, co = some d → d = c) (rest : List Str) :
    loadRows cv vss.length co (ls ++ rest) = .ok (vss, rest) := by
  induction h generalizing co with
  | nil => simp [loadRows]
  | @cons l v ls vss hl h ih =>
    simp only [List.mem_cons, forall_eq_or_imp] at hc
    have hlen := Off.mapM_length hl.2
    simp only [List.length_cons, List.cons_append, loadRows]
    rw [if_neg (by intro e; rw [e] at hlen; exact hl.1 (List.eq_nil_of_length_eq_zero hlen)), if_neg]
    · rw [hl.2]
      simp only
      rw [ih hc.2 (co := some (words l).length) (by
        intro d hd
        simp only [Option.some.injEq] at hd
        rw [← hd, ← hlen, hc.1])]
      rfl
    · cases co with
      | none => simp
      | some d => simp [hco d rfl, ← hlen, hc.1]

theorem loadRows_sound {cv : Str → Option ℚ} {ls rest r : List Str} {vss : List (List ℚ)} {co : Option Nat}
    (hne : ∀ l ∈ ls, words l ≠ []) (h : loadRows cv ls.length co (ls ++ rest) = .ok (vss, r)) :
    r = rest ∧ List.Forall₂ (fun l v => (words l).mapM cv = some v) ls vss ∧
      (∀ c, co = some c → ∀ v ∈ vss, v.length = c) ∧ ∃ c, ∀ v ∈ vss, v.length = c := by
  induction ls generalizing co vss with
  | nil =>
    simp only [List.length_nil, List.nil_append, loadRows, Except.ok.injEq, Prod.mk.injEq] at h
    obtain ⟨rfl, rfl⟩ := h
    exact ⟨rfl, .nil, by simp, 0, by simp⟩
  | cons l ls ih =>
    simp only [List.mem_cons, forall_eq_or_imp] at hne
    simp only [List.length_cons, List.cons_append, loadRows] at h
    rw [if_neg hne.1] at h
    split_ifs at h with hco
    cases hw : (words l).mapM cv with
    | none => simp [hw] at h
    | some v =>
      rw [hw] at h
      simp only at h
      cases hr : loadRows cv ls.length (some (words l).length) (ls ++ rest) with
      | error x => rw [hr] at h; cases h
      | ok q =>
        rw [hr] at h
        change Except.ok (v :: q.1, q.2) = _ at h
        simp only [Except.ok.injEq, Prod.mk.injEq] at h
        obtain ⟨rfl, rfl⟩ := h
        obtain ⟨h1, h2, h3, -⟩ := ih hne.2 hr
        have hlen := Off.mapM_length hw
        have hall : ∀ u ∈ v :: q.1, u.length = (words l).length := by
          simp only [List.mem_cons, forall_eq_or_imp]
          exact ⟨hlen, h3 _ rfl⟩
        refine ⟨h1, .cons hw h2, ?_, _, hall⟩
        rintro c rfl
        simp at hco
        rw [hco]
        exact hall

/-! ## Tables without lists -/

/-- Words that are numbers of the types `ts`. -/
def Words : List Ty → List Str → List ℚ → Prop
  | [], [], [] => True
  | t :: ts, w :: ws, x :: xs => conv t w = some x ∧ Words ts ws xs
  | _, _, _ => False

/-- Numbers converted to the types `ts`. -/
def Casts : List Ty → List ℚ → List ℚ → Prop
  | [], [], [] => True
  | t :: ts, y :: ys, x :: xs => astype t y = some x ∧ Casts ts ys xs
  | _, _, _ => False

theorem textRow_words {ps : List Property} (hf : ∀ p ∈ ps, p.lst = none) {ws : List Str} {row : List (Item ℚ)}
    (h : TextRow true ps ws row) : ∃ vs : List ℚ, row = vs.map .num ∧ Words (ps.map (·.ty)) ws vs := by
  induction ps generalizing ws row with
  | nil =>
    cases row with
    | nil => simp only [TextRow] at h; subst h; exact ⟨[], rfl, trivial⟩
    | cons it its => simp [TextRow] at h
  | cons p ps ih =>
    simp only [List.mem_cons, forall_eq_or_imp] at hf
    cases row with
    | nil => simp [TextRow] at h
    | cons it its =>
      obtain ⟨a, b, rfl, h1, h2⟩ := h
      obtain ⟨vs, rfl, h3⟩ := ih hf.2 h2
      unfold TextItem at h1
      rw [hf.1] at h1
      cases it with
      | list l => simp at h1
      | num x =>
        simp only [if_true] at h1
        obtain ⟨w, rfl, hw⟩ := h1
        exact ⟨x :: vs, rfl, hw, h3⟩

theorem Words.length {ts : List Ty} {ws : List Str} {xs : List ℚ} (h : Words ts ws xs) : ws.length = ts.length ∧ xs.length = ts.length := by
  induction ts generalizing ws xs with
  | nil => cases ws <;> cases xs <;> simp_all [Words]
  | cons t ts ih =>
    cases ws <;> cases xs <;> simp_all [Words]
    exact ih h.2

theorem Words.one {n : Nat} {t : Ty} {ws : List Str} {xs : List ℚ} (h : Words (List.replicate n t) ws xs) : ws.mapM (conv t) = some xs := by
  induction n generalizing ws xs with
  | zero => cases ws <;> cases xs <;> simp_all [Words]
  | succ n ih =>
    cases ws <;> cases xs <;> simp_all [Words, List.replicate_succ, List.mapM_cons]
    rw [ih h.2]
    rfl

theorem Words.double {ts : List Ty} {ws : List Str} {xs : List ℚ} (h : Words ts ws xs) :
    ∃ ys, ws.mapM (conv .f64) = some ys ∧ Casts ts ys xs := by
  induction ts generalizing ws xs with
  | nil => cases ws <;> cases xs <;> simp_all [Words, Casts]
  | cons t ts ih =>
    cases ws with
    | nil => cases xs <;> simp [Words] at h
    | cons w ws =>
      cases xs with
      | nil => simp [Words] at h
      | cons x xs =>
        obtain ⟨h1, h2⟩ := h
        obtain ⟨ys, h3, h4⟩ := ih h2
        obtain ⟨q, hq, ha⟩ := conv_float h1
        refine ⟨Flt.f64 q :: ys, ?_, ha, h4⟩
        have : conv .f64 w = some (Flt.f64 q) := by simp [conv, Ty.isFloat, hq, astype]
        simp [List.mapM_cons, this, h3]

theorem Casts.split {k : Nat} {t : Ty} {ts : List Ty} {ys xs : List ℚ} (h : Casts (List.replicate k t ++ ts) ys xs) :
    (ys.take k).mapM (astype t) = some (xs.take k) ∧ (xs.take k).length = k ∧ Casts ts (ys.drop k) (xs.drop k) := by
  induction k generalizing ys xs with
  | zero => simpa using h
  | succ k ih =>
    rw [List.replicate_succ, List.cons_append] at h
    cases ys with
    | nil => cases xs <;> simp [Casts] at h
    | cons y ys =>
      cases xs with
      | nil => simp [Casts] at h
      | cons x xs =>
        obtain ⟨h1, h2⟩ := h
        obtain ⟨h3, h4, h5⟩ := ih h2
        refine ⟨?_, by simp [h4], h5⟩
        simp [List.mapM_cons, h1, h3]

theorem mapM_forall₂ {α β : Type} {f : α → Option β} {l : List α} {v : List β} (h : List.Forall₂ (fun a b => f a = some b) l v) :
    l.mapM f = some v := by
  induction h with
  | nil => rfl
  | cons h1 _ ih => simp [List.mapM_cons, h1, ih]

theorem forall₂_mapM {α β : Type} {f : α → Option β} {l : List α} {v : List β} (h : l.mapM f = some v) :
    List.Forall₂ (fun a b => f a = some b) l v := by
  induction l generalizing v with
  | nil => simp at h; subst h; exact .nil
  | cons a l ih =>
    rw [List.mapM_cons] at h
    cases ha : f a with
    | none => simp [ha] at h
    | some b =>
      cases hl : l.mapM f with
      | none => simp [ha, hl] at h
      | some t =>
        simp [ha, hl] at h
        subst h
        exact .cons ha (ih hl)

theorem zip_split {α : Type} (k : Nat) (vss : List (List α)) : List.zipWith (· ++ ·) (vss.map (·.take k)) (vss.map (·.drop k)) = vss := by
  induction vss with
  | nil => rfl
  | cons v vss ih => simp [ih]

theorem width_of {N : Type} {a : List (List N)} {k : Nat} (h : ∀ r ∈ a, r.length = k) : ∀ r ∈ a, r.length = width a := by
  intro r hr
  cases a with
  | nil => simp at hr
  | cons b bs => rw [h r hr, width, List.headD_cons, h b (by simp)]

theorem piecesAsc_ok {g : List (Str × Ty × Nat)} {yss vss : List (List ℚ)} (h : List.Forall₂ (Casts (expand g)) yss vss) :
    ∃ ps, piecesAsc g yss = some ps ∧ ps.length = g.length ∧
      (∀ a ∈ ps, a.length = vss.length ∧ ∀ r ∈ a, r.length = width a) ∧ sideBySide vss.length ps = vss := by
  induction g generalizing yss vss with
  | nil =>
    refine ⟨[], rfl, rfl, by simp, ?_⟩
    simp only [sideBySide]
    refine (List.eq_replicate_of_mem fun vs hvs => ?_).symm
    obtain ⟨i, hi, rfl⟩ := List.getElem_of_mem hvs
    have := (List.forall₂_iff_get.mp h).2 i (by rw [h.length_eq]; exact hi) hi
    simp only [expand, List.get_eq_getElem] at this
    generalize vss[i] = v at *
    cases v with
    | nil => rfl
    | cons x v =>
      generalize yss[i]'(by rw [h.length_eq]; exact hi) = y at *
      cases y <;> simp [Casts] at this
  | cons g gs ih =>
    obtain ⟨n, t, k⟩ := g
    simp only [expand] at h
    obtain ⟨ps, h1, h2, h3, h4⟩ := ih (yss := yss.map (·.drop k)) (vss := vss.map (·.drop k)) (by
      rw [List.forall₂_map_left_iff, List.forall₂_map_right_iff]
      exact h.imp fun _ _ h => h.split.2.2)
    rw [List.length_map] at h3 h4
    have ha : yss.mapM (fun r => (r.take k).mapM (astype t)) = some (vss.map (·.take k)) := by
      apply mapM_forall₂
      rw [List.forall₂_map_right_iff]
      exact h.imp fun _ _ h => h.split.1
    have hk : ∀ r ∈ vss.map (·.take k), r.length = k := by
      intro r hr
      obtain ⟨v, hv, rfl⟩ := List.mem_map.mp hr
      obtain ⟨i, hi, rfl⟩ := List.getElem_of_mem hv
      exact ((List.forall₂_iff_get.mp h).2 i (by rw [h.length_eq]; exact hi) hi).split.2.1
    refine ⟨vss.map (·.take k) :: ps, ?_, by simp [h2], ?_, ?_⟩
    · simp only [piecesAsc, ha, h1]
      rfl
    · simp only [List.mem_cons, forall_eq_or_imp]
      exact ⟨⟨by simp, width_of hk⟩, h3⟩
    · simp only [sideBySide, h4]
      exact zip_split k vss

/-! ## Lists -/

theorem takeList_ok {t : Ty} {us : List Str} {vs : List ℚ} (h : List.Forall₂ (fun u x => conv t u = some x) us vs) (rest : List Str) :
    takeList t vs.length (us ++ rest) = .ok (vs, rest) := by
  induction h with
  | nil => rfl
  | @cons u x us vs h1 h ih =>
    obtain ⟨q, hq, ha⟩ := conv_float h1
    simp only [List.length_cons, List.cons_append, takeList, hq, ha]
    rw [ih]
    rfl

theorem itemAsc_ok {p : Property} {ws : List Str} {it : Item ℚ} (h : TextItem false p ws it) (rest : List Str) :
    itemAsc p (ws ++ rest) = .ok (it, rest) := by
  unfold TextItem at h
  cases hl : p.lst with
  | none =>
    rw [hl] at h
    cases it with
    | list l => simp at h
    | num x =>
      simp only [Bool.false_eq_true, if_false] at h
      obtain ⟨w, rfl, h⟩ := h
      simp only [List.cons_append, List.nil_append, itemAsc, hl]
      split_ifs at h ⊢ with hn
      · rw [Option.map_eq_some_iff] at h
        obtain ⟨q, hq, rfl⟩ := h
        rw [hq]
      · rw [Option.map_eq_some_iff] at h
        obtain ⟨q, hq, rfl⟩ := h
        rw [hq]
  | some lt =>
    rw [hl] at h
    cases it with
    | num x => simp at h
    | list vs =>
      simp only at h
      obtain ⟨w, us, rfl, h1, h2, -⟩ := h
      simp only [List.cons_append, itemAsc, hl, h1]
      rw [if_neg (by omega), Int.toNat_natCast, takeList_ok h2]
      rfl

theorem rowAsc_ok {ps : List Property} {ws : List Str} {row : List (Item ℚ)} (h : TextRow false ps ws row) : rowAsc ps ws = .ok row := by
  induction ps generalizing ws row with
  | nil =>
    cases row with
    | nil => simp only [TextRow] at h; subst h; rfl
    | cons it its => simp [TextRow] at h
  | cons p ps ih =>
    cases row with
    | nil => simp [TextRow] at h
    | cons it its =>
      obtain ⟨a, b, rfl, h1, h2⟩ := h
      simp only [rowAsc]
      rw [itemAsc_ok h1]
      change (do let q ← rowAsc ps b; Except.ok (it :: q)) = _
      rw [ih h2]
      rfl

theorem rowsAsc_ok {ps : List Property} {ls : List Str} {rows : List (List (Item ℚ))}
    (h : List.Forall₂ (fun l r => TextRow false ps (words l) r) ls rows) (rest : List Str) :
    rowsAsc ps rows.length (ls ++ rest) = .ok (rows, rest) := by
  induction h with
  | nil => rfl
  | @cons l r ls rows h1 h ih =>
    simp only [List.length_cons, List.cons_append, rowsAsc]
    rw [rowAsc_ok h1]
    change (do let q ← rowsAsc ps rows.length (ls ++ rest); Except.ok (r :: q.1, q.2)) = _
    rw [ih]
    rfl

/-! ## Elements -/

theorem elemAsc_spec {e : Elem} (hwf : WF e) {ls : List Str} {rows : List (List (Item ℚ))} (hc : rows.length = e.count)
    (h : List.Forall₂ (fun l r => TextRow e.isFixed e.props (words l) r) ls rows) (rest : List Str) :
    ∃ d, elemAsc e (ls ++ rest) = .ok (d, rest) ∧ Holds e d rows := by
  unfold elemAsc
  by_cases h0 : e.count = 0
  · rw [if_pos h0]
    rw [h0] at hc
    have := List.eq_nil_of_length_eq_zero hc
    subst this
    cases h
    exact ⟨_, rfl, .inl h0, rfl⟩
  rw [if_neg h0]
  by_cases hf : e.isFixed = true
  · rw [hf] at h
    have hps := isFixed_iff.mp hf
    have hv : ∃ vss : List (List ℚ), rows = vss.map (·.map .num) ∧ List.Forall₂ (fun l vs => Words (e.props.map (·.ty)) (words l) vs) ls vss := by
      clear hc h0
      induction h with
      | nil => exact ⟨[], rfl, .nil⟩
      | @cons l r ls rows h1 h ih =>
        obtain ⟨vss, rfl, h2⟩ := ih
        obtain ⟨vs, rfl, h3⟩ := textRow_words hps h1
        exact ⟨vs :: vss, rfl, .cons h3 h2⟩
    obtain ⟨vss, rfl, hw⟩ := hv
    rw [List.length_map] at hc
    have hlen : ∀ v ∈ vss, v.length = e.props.length := by
      intro v hv
      obtain ⟨i, hi, rfl⟩ := List.getElem_of_mem hv
      have := ((List.forall₂_iff_get.mp hw).2 i (by rw [hw.length_eq]; exact hi) hi).length.2
      simpa using this
    have hpos : 0 < e.props.length := List.length_pos_iff.mpr hwf.1
    have hshape : ∀ {a : List (List ℚ)}, a.length = e.count → (∀ v ∈ a, v.length = e.props.length) → checkShape e (a, rest) = .ok (a, rest) := by
      intro a ha1 ha2
      unfold checkShape
      cases a with
      | nil => exact absurd ha1.symm h0
      | cons b bs =>
        rw [if_neg, if_neg]
        · simp [ha1]
        · simp [width, ha2 b (by simp)]
    by_cases h1 : e.isConst = true
    · rw [if_pos h1]
      obtain ⟨-, ht⟩ := (isConst_iff hwf.1).mp h1
      have hty : e.props.map (·.ty) = List.replicate e.props.length (ty0 e) := by
        rw [List.eq_replicate_iff]
        refine ⟨by simp, fun t ht' => ?_⟩
        obtain ⟨p, hp, rfl⟩ := List.mem_map.mp ht'
        obtain ⟨q, qs, hq⟩ := List.exists_cons_of_ne_nil hwf.1
        rw [ty0, hq]
        exact ht p hp q (by rw [hq]; simp)
      have hl := loadRows_ok (cv := conv (ty0 e)) (ls := ls) (vss := vss) (c := e.props.length) (by
          rw [List.forall₂_iff_get]
          refine ⟨hw.length_eq, fun i h1 h2 => ?_⟩
          have := (List.forall₂_iff_get.mp hw).2 i h1 h2
          refine ⟨fun hn => ?_, ?_⟩
          · have hz := hlen _ (List.get_mem vss ⟨i, h2⟩)
            rw [hn] at hz
            simp at hz
            omega
          · rw [hty] at this
            exact this.one) hlen (co := none) (by simp) rest
      refine ⟨.pieces [vss], ?_, hf, by simp [h1], ?_, ?_⟩
      · unfold fixedAsc
        rw [← hc, hl]
        change (do let r ← checkShape e (vss, rest); Except.ok (Data.pieces [r.1], r.2)) = _
        rw [hshape hc hlen]
        rfl
      · intro a ha
        simp only [List.mem_singleton] at ha
        subst ha
        exact ⟨hc, width_of hlen⟩
      · rw [← hc, sideBySide_one]
    · rw [if_neg h1, if_pos hf]
      have hy : ∃ yss : List (List ℚ), List.Forall₂ (fun l ys => (words l).mapM (conv .f64) = some ys) ls yss ∧
          List.Forall₂ (Casts (e.props.map (·.ty))) yss vss := by
        clear hc hlen
        induction hw with
        | nil => exact ⟨[], .nil, .nil⟩
        | cons hx _ ih =>
          obtain ⟨yss, a, b⟩ := ih (by cases h; assumption)
          obtain ⟨ys, c, d⟩ := hx.double
          exact ⟨ys :: yss, .cons c a, .cons d b⟩
      obtain ⟨yss, y1, y2⟩ := hy
      have hylen : ∀ v ∈ yss, v.length = e.props.length := by
        intro v hv
        obtain ⟨i, hi, rfl⟩ := List.getElem_of_mem hv
        have hi' : i < ls.length := by rw [y1.length_eq]; exact hi
        have a := Off.mapM_length ((List.forall₂_iff_get.mp y1).2 i hi' hi)
        have b := ((List.forall₂_iff_get.mp hw).2 i hi' (by rw [← hw.length_eq]; exact hi')).length.1
        simp only [List.get_eq_getElem, List.length_map] at a b
        rw [a, b]
      have hyc : yss.length = e.count := by rw [y2.length_eq, hc]
      have hl := loadRows_ok (cv := conv .f64) (ls := ls) (vss := yss) (c := e.props.length) (by
          rw [List.forall₂_iff_get]
          refine ⟨y1.length_eq, fun i h1 h2 => ⟨fun hn => ?_, (List.forall₂_iff_get.mp y1).2 i h1 h2⟩⟩
          have hz := hylen _ (List.get_mem yss ⟨i, h2⟩)
          rw [hn] at hz
          simp at hz
          omega) hylen (co := none) (by simp) rest
      have hg := (expand_groups hwf.2).1
      rw [← hg] at y2
      obtain ⟨ps, p1, p2, p3, p4⟩ := piecesAsc_ok y2
      refine ⟨.pieces ps, ?_, hf, ?_, ?_, ?_⟩
      · unfold nolistAsc
        rw [← hyc, hl]
        change (do
          let r ← checkShape e (yss, rest)
          match piecesAsc (groups e.props) r.1 with
            | none => Except.error Err.undefined
            | some ps => Except.ok (Data.pieces ps, r.2)) = _
        rw [hshape hyc hylen]
        change (match piecesAsc (groups e.props) yss with
            | none => Except.error Err.undefined
            | some ps => Except.ok (Data.pieces ps, rest)) = _
        rw [p1]
      · rw [p2]
        constructor
        · intro hg1
          exact (isConst_iff hwf.1).mpr ⟨hf, groups_one hwf.2 hg1⟩
        · exact fun hcn => absurd hcn h1
      · rw [← hc]; exact p3
      · rw [← hc, p4]
  have hf' : e.isFixed = false := by simpa using hf
  have hcst : ¬ e.isConst = true := fun hcn => hf ((isConst_iff hwf.1).mp hcn).1
  rw [if_neg hcst, if_neg hf]
  rw [hf'] at h
  have hslow : ∃ d, slowAsc e (ls ++ rest) = .ok (d, rest) ∧ Holds e d rows := by
    refine ⟨.rows rows, ?_, .inr hf', rfl⟩
    unfold slowAsc
    rw [← hc, rowsAsc_ok h]
    rfl
  by_cases h3 : e.tryList = true
  swap
  · rw [if_neg h3]
    exact hslow
  rw [if_pos h3]
  obtain ⟨p, hp, lt, hlt⟩ : ∃ p, e.props = [p] ∧ ∃ lt, p.lst = some lt := by
    obtain ⟨nm, cnt, ps⟩ := e
    match ps with
    | [] => simp [Elem.tryList] at h3
    | [p] =>
      refine ⟨p, rfl, ?_⟩
      simp [Elem.tryList] at h3
      exact Option.isSome_iff_exists.mp h3
    | p :: q :: r => simp [Elem.tryList] at h3
  have hlst : List.Forall₂ (fun l r => ∃ w us vs, words l = w :: us ∧ r = [.list vs] ∧ parseInt w = some (vs.length : Int) ∧
      List.Forall₂ (fun u x => conv p.ty u = some x) us vs ∧ (p.ty.isFloat = true → vs.length ≤ 2 ^ 24)) ls rows := by
    refine h.imp fun l r hr => ?_
    rw [hp] at hr
    cases r with
    | nil => simp [TextRow] at hr
    | cons it its =>
      obtain ⟨a, b, hw, h1, h2⟩ := hr
      cases its with
      | cons _ _ => simp [TextRow] at h2
      | nil =>
        simp only [TextRow] at h2
        subst h2
        unfold TextItem at h1
        rw [hlt] at h1
        cases it with
        | num x => simp at h1
        | list vs =>
          obtain ⟨w, us, rfl, h3, h4, h5⟩ := h1
          rw [List.append_nil] at hw
          exact ⟨w, us, vs, hw, rfl, h3, h4, h5⟩
  have hlc : ls.length = e.count := by rw [h.length_eq, hc]
  cases hld : loadRows (conv (ty0 e)) e.count none (ls ++ rest) with
  | error x =>
    obtain ⟨d, hd⟩ := hslow
    refine ⟨d, ?_, hd.2⟩
    have : constAsc e (ty0 e) (ls ++ rest) = .ok none := by unfold constAsc; rw [hld]
    rw [this]
    exact hd.1
  | ok r =>
    obtain ⟨vss, r⟩ := r
    have hty : ty0 e = p.ty := by rw [ty0, hp]; rfl
    rw [hty] at hld
    rw [← hlc] at hld
    obtain ⟨rfl, s2, -, c, s4⟩ := loadRows_sound (by
      intro l hl
      obtain ⟨i, hi, rfl⟩ := List.getElem_of_mem hl
      obtain ⟨w, us, vs, hw, -⟩ := (List.forall₂_iff_get.mp hlst).2 i hi (by rw [← hlst.length_eq]; exact hi)
      simp only [List.get_eq_getElem] at hw
      rw [hw]
      simp) hld
    have hboth : rows = (vss.map (·.drop 1)).map (fun v => [.list v]) ∧ ∀ v ∈ vss, v.getD 0 0 = (v.length : ℚ) - 1 ∧ 1 ≤ v.length := by
      clear hld hlc h hslow hc s4
      induction s2 generalizing rows with
      | nil => cases hlst; exact ⟨rfl, by simp⟩
      | @cons l v ls vss hv s2 ih =>
        cases hlst with
        | @cons _ r _ rows h1 h2 =>
          obtain ⟨w, us, vs, hw, rfl, hlen, hcv, hfl⟩ := h1
          obtain ⟨ih1, ih2⟩ := ih h2
          rw [hw, List.mapM_cons] at hv
          cases hx : conv p.ty w with
          | none => simp [hx] at hv
          | some x =>
            simp [hx, mapM_forall₂ hcv] at hv
            subst hv
            have := conv_length hx hlen hfl
            refine ⟨by simp [ih1], ?_⟩
            simp only [List.mem_cons, forall_eq_or_imp]
            refine ⟨?_, ih2⟩
            simp [this]
    obtain ⟨b1, b2⟩ := hboth
    have hwid := width_of s4
    refine ⟨.rect (vss.map (·.drop 1)), ?_, hf', h0, b1, ?_⟩
    · have : constAsc e (ty0 e) (ls ++ r) = .ok (some (vss.map (·.drop 1), r)) := by
        unfold constAsc
        rw [hty, ← hlc, hld]
        simp only
        rw [if_neg, if_neg]
        · simp [s2.length_eq]
        · simp only [List.any_eq_true, decide_eq_true_eq, not_exists, not_and, not_not]
          intro v hv
          rw [(b2 v hv).1, ← hwid v hv]
      rw [this]
      rfl
    · refine width_of (k := c - 1) ?_
      intro v hv
      obtain ⟨u, hu, rfl⟩ := List.mem_map.mp hv
      rw [List.length_drop, s4 u hu]

/-! ## Ascii files -/

theorem readAll_text {N α : Type} {rd : Elem → List α → Except Err (Data N × List α)} {P : Elem → List (List (Item N)) → List α → Prop}
    (hrd : ∀ e rows t s, P e rows t → ∃ d, rd e (t ++ s) = .ok (d, s) ∧ Holds e d rows)
    {L : List (Elem × List (List (Item N)))} {ts : List (List α)} (hL : List.Forall₂ (fun x t => P x.1 x.2 t) L ts) (s : List α) :
    ∃ els, readAll rd (L.map (·.1)) (ts.flatten ++ s) = .ok (els, s) ∧
      List.Forall₂ (fun x (y : Str × Data N) => y.1 = x.1.name ∧ Holds x.1 y.2 x.2) L els := by
  induction hL with
  | nil => exact ⟨[], rfl, .nil⟩
  | @cons x t L ts h1 h ih =>
    obtain ⟨els, h2, h3⟩ := ih
    obtain ⟨d, h4, h5⟩ := hrd x.1 x.2 t (ts.flatten ++ s) h1
    refine ⟨(x.1.name, d) :: els, ?_, .cons ⟨rfl, h5⟩ h3⟩
    simp only [List.map_cons, List.flatten_cons, List.append_assoc, readAll]
    rw [h4]
    change (do let q ← readAll rd (L.map fun y : Elem × List (List (Item N)) => y.1) (ts.flatten ++ s); Except.ok ((x.1.name, d) :: q.1, q.2)) = _
    rw [h2]
    rfl

/-- An ascii file whose header is followed by the lines of the tables, and by blank lines, is loaded: the vertices are the
columns and the faces the polygons of these tables. -/
theorem load_ascii {F : Type} (cb : Cfg Val F) (ca : Cfg ℚ F) (nb : Bool) {s rest : Str} {H : Header}
    (hs : header s = .ok (H, rest)) {L : List (Elem × List (List (Item ℚ)))} {ts : List (List Str)} {tail : List Str}
    (hrest : lines rest = ts.flatten ++ tail) (htail : ∀ l ∈ tail, strip l = [])
    (hb : H.fmt = .ascii) (hH : H.elements = L.map (·.1)) (hn : (L.map fun x => x.1.name).Nodup)
    (hL : List.Forall₂ (fun x t => x.2.length = x.1.count ∧
      List.Forall₂ (fun l r => TextRow x.1.isFixed x.1.props (words l) r) t x.2) L ts)
    {e : Elem} {rows : List (List (Item ℚ))} (hv : (e, rows) ∈ L) (hname : e.name = cs"vertex") (hf : e.isFixed = true)
    {pi : List Nat} (hpi : colIdx e xyz = some pi) {ls : Option (List (List ℚ))} (hfa : FacesOk L ls) :
    ∃ fs, loadPly cb ca nb s = .ok ⟨vertsSpec ca e pi rows, fs⟩ ∧ FacesSpec ca.toIdx (ls.getD []) fs := by
  have hwf := (header_wf hs).2
  obtain ⟨els, h1, h2⟩ := readAll_text (rd := elemAsc)
    (P := fun e rows t => WF e ∧ rows.length = e.count ∧ List.Forall₂ (fun l r => TextRow e.isFixed e.props (words l) r) t rows)
    (fun e rows t s h => elemAsc_spec h.1 h.2.1 h.2.2 s) (L := L) (ts := ts) (by
      rw [List.forall₂_iff_get] at hL ⊢
      refine ⟨hL.1, fun i h1 h2 => ⟨(hwf _ ?_).1, hL.2 i h1 h2⟩⟩
      rw [hH]
      exact List.mem_map_of_mem (f := fun x : Elem × List (List (Item ℚ)) => x.1) (List.get_mem L ⟨i, h1⟩)) tail
  have hw : ∀ r ∈ rows, r.length = e.props.length := by
    obtain ⟨i, hi, hie⟩ := List.getElem_of_mem hv
    have := ((List.forall₂_iff_get.mp hL).2 i hi (by rw [← hL.length_eq]; exact hi)).2
    simp only [List.get_eq_getElem, hie] at this
    intro r hr
    obtain ⟨j, hj, rfl⟩ := List.getElem_of_mem hr
    have h3 := (List.forall₂_iff_get.mp this).2 j (by rw [this.length_eq]; exact hj) hj
    simp only [hf] at h3
    obtain ⟨vs, h4, h5⟩ := textRow_words (isFixed_iff.mp hf) h3
    simp only [List.get_eq_getElem] at h4
    rw [h4, List.length_map, h5.length.2, List.length_map]
  obtain ⟨fs, h3, h4⟩ := assemble_spec ca hH hn h2 hv hname hf hw hpi hfa
  refine ⟨fs, ?_, h4⟩
  unfold loadPly
  rw [hs]
  simp only
  rw [if_neg, hb]
  · simp only
    rw [hH, hrest, h1]
    change (if tail.all (fun l => decide (strip l = [])) = true then assemble ca H els else .error .value) = _
    rw [if_pos (by simpa using htail)]
    exact h3
  · rw [not_not, hH, List.map_map]
    exact hn

end P3D.Ply
