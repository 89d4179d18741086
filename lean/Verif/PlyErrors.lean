/-
PLY files that are rejected: cut off, with something after the tables, with extra words; conversions that cut towards zero; which colours are
divided by 255.
-/
import Verif.PlyRound

set_option linter.unusedSectionVars false

namespace P3D.Ply

open P3D.Text

/-! ### Readers look only at what they consume -/

/-- What was read, followed by more bytes, is read the same way. -/
def Ext {X : Type} (f : Str → Except Err (X × Str)) : Prop := ∀ s x s' t, f s = .ok (x, s') → f (s ++ t) = .ok (x, s' ++ t)

theorem read_ext (n : Nat) : Ext (read n) := by
  intro s x s' t h
  unfold read at h ⊢
  split_ifs at h with h1
  cases h
  rw [if_neg (by simp; omega), List.take_append_of_le_length (by omega), List.drop_append_of_le_length (by omega)]

theorem Ext.bind {X Y : Type} {f : Str → Except Err (X × Str)} {g : X → Str → Except Err (Y × Str)} (hf : Ext f) (hg : ∀ x, Ext (g x)) :
    Ext (fun s => (f s).bind fun r => g r.1 r.2) := by
  intro s y s' t h
  cases e : f s with
  | error err => simp only [e, Except.bind] at h; cases h
  | ok r =>
    obtain ⟨x, s1⟩ := r
    simp only [e, Except.bind] at h
    simp only [hf s x s1 t e, Except.bind]
    exact hg x s1 y s' t h

theorem Ext.map {X Y : Type} {f : Str → Except Err (X × Str)} (hf : Ext f) (g : X → Y) :
    Ext (fun s => (f s).bind fun r => .ok (g r.1, r.2)) :=
  hf.bind (g := fun x s => .ok (g x, s)) fun x => by intro s y s' t h; cases h; rfl

theorem fixedBin_ext (nb be : Bool) (e : Elem) (t : Ty) : Ext (fixedBin nb be e t) :=
  (read_ext (e.count * e.props.length * t.size)).map fun r =>
    Data.pieces [chunks e.props.length e.count ((chunks t.size (e.count * e.props.length) r).map (npItem nb be t))]

theorem nolistBin_ext (nb be : Bool) (e : Elem) : Ext (nolistBin nb be e) :=
  (read_ext ((e.props.map fun p => p.ty.size).sum * e.count)).map fun r =>
    Data.pieces (piecesBin nb be (groups e.props) (chunks ((e.props.map fun (p : Property) => p.ty.size).sum) e.count r))

theorem getLength_ext (be : Bool) (lt : Ty) : Ext (getLength be lt) := by
  refine (read_ext _).bind (g := fun x s => match unpack be lt x with
    | .int z => if z < 0 then .error .value else .ok (z.toNat, s)
    | _ => .error .type) fun x => ?_
  intro s y s' t h
  cases e : unpack be lt x with
  | int z =>
    simp only [e] at h ⊢
    split_ifs at h ⊢
    cases h; rfl
  | f32 _ => simp only [e] at h; cases h
  | f64 _ => simp only [e] at h; cases h

theorem listBin_ext (nb be : Bool) (t : Ty) (len : Nat) : Ext (listBin nb be t len) :=
  (read_ext (t.size * len)).map fun r => (chunks t.size len r).map (npItem nb be t)

theorem itemBin_ext (nb be : Bool) (p : Property) : Ext (itemBin nb be p) := by
  cases e : p.lst with
  | none =>
    have := (read_ext p.ty.size).map fun x => Item.num (unpack be p.ty x)
    intro s x s' t h
    simp only [itemBin, e] at h ⊢
    exact this s x s' t h
  | some lt =>
    have := (getLength_ext be lt).bind (g := fun n s => (listBin nb be p.ty n s).bind fun r => .ok (Item.list r.1, r.2))
      fun n => (listBin_ext nb be p.ty n).map _
    intro s x s' t h
    simp only [itemBin, e] at h ⊢
    exact this s x s' t h

theorem rowBin_ext (nb be : Bool) : ∀ ps : List Property, Ext (rowBin nb be ps)
  | [] => by intro s x s' t h; cases h; rfl
  | p :: ps => (itemBin_ext nb be p).bind (g := fun x s => (rowBin nb be ps s).bind fun q => .ok (x :: q.1, q.2))
      fun x => (rowBin_ext nb be ps).map _

theorem rowsBin_ext (nb be : Bool) (ps : List Property) : ∀ n : Nat, Ext (rowsBin nb be ps n)
  | 0 => by intro s x s' t h; cases h; rfl
  | n + 1 => (rowBin_ext nb be ps).bind (g := fun x s => (rowsBin nb be ps n s).bind fun q => .ok (x :: q.1, q.2))
      fun x => (rowsBin_ext nb be ps n).map _

theorem slowBin_ext (nb be : Bool) (e : Elem) : Ext (slowBin nb be e) := (rowsBin_ext nb be e.props e.count).map _

theorem constLoop_ext (nb be : Bool) (lt t : Ty) (len : Nat) : ∀ (n : Nat) (s u : Str) (o : Option (List (List Val) × Str)),
    constLoop nb be lt t len n s = .ok o → constLoop nb be lt t len n (s ++ u) = .ok (o.map fun q => (q.1, q.2 ++ u))
  | 0, s, u, o, h => by cases h; rfl
  | n + 1, s, u, o, h => by
    simp only [constLoop, bind, Except.bind] at h ⊢
    cases e1 : listBin nb be t len s with
    | error err => rw [e1] at h; cases h
    | ok r =>
      rw [e1] at h
      rw [listBin_ext nb be t len s r.1 r.2 u e1]
      simp only at h ⊢
      split_ifs at h ⊢ with hn
      · cases h; rfl
      · cases e2 : getLength be lt r.2 with
        | error err => rw [e2] at h; cases h
        | ok l =>
          rw [e2] at h
          rw [getLength_ext be lt r.2 l.1 l.2 u e2]
          simp only at h ⊢
          split_ifs at h ⊢ with hl
          · cases h; rfl
          · cases e3 : constLoop nb be lt t len n l.2 with
            | error err => rw [e3] at h; cases h
            | ok o' =>
              rw [e3] at h
              rw [constLoop_ext nb be lt t len n l.2 u o' e3]
              cases o' with
              | none => cases h; rfl
              | some q => cases h; rfl

theorem constBin_ext (nb be : Bool) (lt t : Ty) (count : Nat) (s u : Str) (o : Option (List (List Val) × Str))
    (h : constBin nb be lt t count s = .ok o) : constBin nb be lt t count (s ++ u) = .ok (o.map fun q => (q.1, q.2 ++ u)) := by
  simp only [constBin, bind, Except.bind] at h ⊢
  cases e2 : getLength be lt s with
  | error err => rw [e2] at h; cases h
  | ok l =>
    rw [e2] at h
    rw [getLength_ext be lt s l.1 l.2 u e2]
    exact constLoop_ext nb be lt t l.1 count l.2 u o h

theorem elemBin_ext (nb be : Bool) (e : Elem) : Ext (elemBin nb be e) := by
  intro s x s' t h
  unfold elemBin at h ⊢
  split_ifs at h ⊢ with h1 h2 h3 h4
  · cases h; rfl
  · exact fixedBin_ext nb be e _ s x s' t h
  · exact nolistBin_ext nb be e s x s' t h
  · simp only [bind, Except.bind] at h ⊢
    cases e1 : constBin nb be (lst0 e) (ty0 e) e.count s with
    | error err => rw [e1] at h; cases h
    | ok o =>
      rw [e1] at h
      rw [constBin_ext nb be _ _ _ s t o e1]
      cases o with
      | none => exact slowBin_ext nb be e s x s' t h
      | some r => cases h; rfl
  · exact slowBin_ext nb be e s x s' t h

theorem readAll_ext {N : Type} {rd : Elem → Str → Except Err (Data N × Str)} (h : ∀ e, Ext (rd e)) : ∀ es : List Elem, Ext (readAll rd es)
  | [] => by intro s x s' t h; cases h; rfl
  | e :: es => (h e).bind (g := fun d s => (readAll rd es s).bind fun q => .ok ((e.name, d) :: q.1, q.2)) fun d => (readAll_ext h es).map _

/-! ### Rejected files -/

/-- **A binary file cut off anywhere in its tables is rejected**, whatever the elements and byte orders. -/
theorem binary_truncated {F : Type} (cb : Cfg Val F) (ca : Cfg ℚ F) (nb be : Bool) {s : Str} {H : Header}
    {L : List (Elem × List (List (Item Val)))} {part missing : Str} (hs : header s = .ok (H, part))
    (hpart : part ++ missing = L.flatMap (fun x => x.2.flatMap (encRow be x.1.props))) (hmiss : missing ≠ [])
    (hb : H.fmt = .binary be) (hH : H.elements = L.map (·.1))
    (hL : ∀ x ∈ L, x.2.length = x.1.count ∧ ∀ r ∈ x.2, List.Forall₂ Fits x.1.props r) :
    ∃ err, loadPly cb ca nb s = .error err := by
  have hwf := (header_wf hs).2
  obtain ⟨els, r1, -⟩ := readAll_spec (rd := elemBin nb be) (enc := fun e rows => rows.flatMap (encRow be e.props))
    (Ok := fun e rows => WF e ∧ rows.length = e.count ∧ ∀ r ∈ rows, List.Forall₂ Fits e.props r)
    (fun e rows s h => elemBin_spec nb be h.1 h.2.1 h.2.2 s) (L := L)
    (fun x hx => ⟨(hwf x.1 (by rw [hH]; exact List.mem_map_of_mem hx)).1, hL x hx⟩) []
  rw [List.append_nil, ← hpart] at r1
  unfold loadPly
  rw [hs]
  simp only
  by_cases hn : ¬ (H.elements.map (·.name)).Nodup
  · rw [if_pos hn]; exact ⟨_, rfl⟩
  · rw [if_neg hn, hb]
    simp only [hH]
    cases e : readAll (elemBin nb be) (L.map (·.1)) part with
    | error err => exact ⟨err, rfl⟩
    | ok r =>
      have := readAll_ext (elemBin_ext nb be) _ part r.1 r.2 missing e
      rw [r1] at this
      have h2 : ([] : Str) = r.2 ++ missing := (Prod.mk.inj (Except.ok.inj this)).2
      have := (List.append_eq_nil_iff.mp h2.symm).2
      exact absurd this hmiss

/-- **Anything but blanks after the tables of a binary file is an error.** -/
theorem binary_trailing {F : Type} (cb : Cfg Val F) (ca : Cfg ℚ F) (nb be : Bool) {s : Str} {H : Header}
    {L : List (Elem × List (List (Item Val)))} {tail : Str}
    (hs : header s = .ok (H, L.flatMap (fun x => x.2.flatMap (encRow be x.1.props)) ++ tail)) (htail : strip tail ≠ [])
    (hb : H.fmt = .binary be) (hH : H.elements = L.map (·.1)) (hn : (L.map fun x => x.1.name).Nodup)
    (hL : ∀ x ∈ L, x.2.length = x.1.count ∧ ∀ r ∈ x.2, List.Forall₂ Fits x.1.props r) :
    loadPly cb ca nb s = .error .value := by
  have hwf := (header_wf hs).2
  obtain ⟨els, r1, -⟩ := readAll_spec (rd := elemBin nb be) (enc := fun e rows => rows.flatMap (encRow be e.props))
    (Ok := fun e rows => WF e ∧ rows.length = e.count ∧ ∀ r ∈ rows, List.Forall₂ Fits e.props r)
    (fun e rows s h => elemBin_spec nb be h.1 h.2.1 h.2.2 s) (L := L)
    (fun x hx => ⟨(hwf x.1 (by rw [hH]; exact List.mem_map_of_mem hx)).1, hL x hx⟩) tail
  unfold loadPly
  rw [hs]
  simp only
  rw [if_neg, hb]
  · simp only
    rw [hH, r1]
    simp only [bind, Except.bind, if_neg htail]
  · rw [hH, List.map_map, not_not]
    exact hn

/-- **Words after the last property of a row are an error** (rows read one by one). -/
theorem row_extra {ps : List Property} {ws : List Str} {row : List (Item ℚ)} (h : TextRow false ps ws row) (w : Str) (rest : List Str) :
    rowAsc ps (ws ++ w :: rest) = .error .value := by
  induction ps generalizing ws row with
  | nil =>
    cases row with
    | nil => simp only [TextRow] at h; subst h; rfl
    | cons it its => simp [TextRow] at h
  | cons p ps ih =>
    cases row with
    | nil => simp [TextRow] at h
    | cons it its =>
      obtain ⟨a, b, rfl, h1, h2⟩ := h
      simp only [rowAsc]
      rw [List.append_assoc, itemAsc_ok h1]
      change (do let q ← rowAsc ps (b ++ w :: rest); Except.ok (it :: q)) = _
      rw [ih h2]
      rfl

/-- **A property line has three or five words.** -/
theorem property_words {line : Str} (h3 : (splitOn ' ' line).length ≠ 3) (h5 : (splitOn ' ' line).length ≠ 5) :
    parseProperty line = .error .value := by
  simp only [parseProperty, if_pos (And.intro h3 h5)]

/-- **Conversion to an integer type cuts off towards zero.** -/
theorem astype_trunc {t : Ty} (hf : t.isFloat = false) {x y : ℚ} (h : astype t x = some y) :
    (∃ z : Int, y = z ∧ t.lo ≤ z ∧ z < t.hi) ∧ |y| ≤ |x| ∧ |x - y| < 1 ∧ 0 ≤ x * y := by
  have key : (if t.lo ≤ Off.trunc x ∧ Off.trunc x < t.hi then some ((Off.trunc x : Int) : ℚ) else none) = some y := by
    cases t <;> first | exact h | simp [Ty.isFloat] at hf
  split_ifs at key with hb
  cases key
  refine ⟨⟨_, rfl, hb⟩, ?_⟩
  unfold Off.trunc
  split_ifs with hx
  · have h1 := Int.le_ceil x
    have h2 := Int.ceil_lt_add_one x
    have h3 : ((⌈x⌉ : Int) : ℚ) ≤ 0 := by exact_mod_cast Int.ceil_le.mpr (by simpa using hx.le)
    rw [abs_of_nonpos h3, abs_of_neg hx]
    exact ⟨by linarith, abs_lt.mpr ⟨by linarith, by linarith⟩, mul_nonneg_of_nonpos_of_nonpos hx.le h3⟩
  · push Not at hx
    have h1 := Int.floor_le x
    have h2 := Int.lt_floor_add_one x
    have h3 : (0 : ℚ) ≤ ((⌊x⌋ : Int) : ℚ) := by exact_mod_cast Int.floor_nonneg.mpr hx
    rw [abs_of_nonneg h3, abs_of_nonneg hx]
    exact ⟨by linarith, abs_lt.mpr ⟨by linarith, by linarith⟩, mul_nonneg hx h3⟩

/-- **Colours are divided by 255 exactly if all of them have one byte.** -/
theorem colours_scaled {F : Type} (sc : F → F) (e : Elem) (idx : List Nat) (a : List (List F)) :
    ((∀ i ∈ idx, ∃ p, e.props[i]? = some p ∧ p.ty.size = 1) → scaled sc (isByte e idx) a = a.map (·.map sc)) ∧
    ((∃ i ∈ idx, ∀ p, e.props[i]? = some p → p.ty.size ≠ 1) → scaled sc (isByte e idx) a = a) := by
  constructor
  · intro h
    have : isByte e idx = true := by
      rw [isByte, List.all_eq_true]
      intro i hi
      obtain ⟨p, h1, h2⟩ := h i hi
      simp [h1, h2]
    rw [this]; rfl
  · rintro ⟨i, hi, h⟩
    have : isByte e idx = false := by
      rw [isByte, List.all_eq_false]
      refine ⟨i, hi, ?_⟩
      cases e1 : e.props[i]? with
      | none => simp
      | some p => simpa using h p e1
    rw [this]; rfl

/-! ### Examples -/

/-- A vertex of two bytes cut off after one; a byte too many. -/
example : elemBin false true ⟨cs"vertex", 1, [⟨cs"x", cs"uchar", .u8, none⟩, ⟨cs"y", cs"uchar", .u8, none⟩]⟩ (cs"a") = .error .value ∧
    (elemBin false true ⟨cs"vertex", 1, [⟨cs"x", cs"uchar", .u8, none⟩, ⟨cs"y", cs"uchar", .u8, none⟩]⟩ (cs"abc")).map Prod.snd = .ok (cs"c") := by
  decide +kernel

/-- Negative fractions lose their fraction; the range is tested afterwards. -/
example : astype .i8 (-3 / 2) = some (-1) ∧ astype .u8 (-1 / 2) = some 0 ∧ astype .i8 (1000 / 3) = none := by decide +kernel

example : parseProperty (cs"property float x y") = .error .value ∧ parseProperty (cs"property float x") = .ok ⟨cs"x", cs"float", .f32, none⟩ := by
  decide +kernel

end P3D.Ply
