/-
Proofs about the binary part of `PlyIo`: whatever the byte order of the file and of the machine and whichever of the
four readers is used, an element is read as the table that was encoded.
-/
import Verif.PlyIo

set_option linter.unusedSectionVars false
set_option linter.unusedSimpArgs false

namespace P3D.Ply
open Text Obj

/-! ## Specification -/

/-- The numbers of a type. -/
def ValOk (t : Ty) (v : Val) : Prop :=
  match t, v with
  | .f32, .f32 b => b < 2 ^ 32
  | .f64, .f64 b => b < 2 ^ 64
  | t, .int z => t.isFloat = false ∧ t.lo ≤ z ∧ z < t.hi
  | _, _ => False

/-- The bits of a number. -/
def raw (t : Ty) : Val → Nat
  | .int z => (z % 2 ^ (8 * t.size)).toNat
  | .f32 b => b
  | .f64 b => b

/-- The bytes of a number in a file of byte order `be`. -/
def encVal (be : Bool) (t : Ty) (v : Val) : Str := natBytes be t.size (raw t v)

/-- A value of a property. -/
def Fits (p : Property) (it : Item Val) : Prop :=
  match p.lst, it with
  | none, .num v => ValOk p.ty v
  | some lt, .list vs => lt.isFloat = false ∧ (vs.length : Int) < lt.hi ∧ ∀ v ∈ vs, ValOk p.ty v
  | _, _ => False

def encItem (be : Bool) (p : Property) (it : Item Val) : Str :=
  match p.lst, it with
  | none, .num v => encVal be p.ty v
  | some lt, .list vs => natBytes be lt.size vs.length ++ vs.flatMap (encVal be p.ty)
  | _, _ => []

def encRow (be : Bool) (ps : List Property) (row : List (Item Val)) : Str := (List.zipWith (encItem be) ps row).flatten

/-- The rows of several arrays side by side. -/
def sideBySide {N : Type} (n : Nat) : List (List (List N)) → List (List N)
  | [] => List.replicate n []
  | a :: ps => List.zipWith (· ++ ·) a (sideBySide n ps)

/-- The data read of an element are the rows of a table. -/
def Holds {N : Type} (e : Elem) (d : Data N) (rows : List (List (Item N))) : Prop :=
  match d with
  | .pieces ps => e.isFixed = true ∧ (ps.length = 1 ↔ e.isConst = true) ∧ (∀ a ∈ ps, a.length = e.count ∧ ∀ r ∈ a, r.length = width a) ∧
      rows = (sideBySide e.count ps).map (·.map .num)
  | .rect a => e.isFixed = false ∧ e.count ≠ 0 ∧ rows = a.map (fun r => [.list r]) ∧ ∀ r ∈ a, r.length = width a
  | .rows rs => (e.count = 0 ∨ e.isFixed = false) ∧ rows = rs

/-- The types of the properties belong to the names that were written. -/
def WF (e : Elem) : Prop := e.props ≠ [] ∧ ∀ p ∈ e.props, plyTy p.tname = some p.ty

/-! ## Bytes -/

theorem byte_toNat (n : Nat) : (byte n).toNat = n % 256 := by
  have h : n % 256 < 256 := Nat.mod_lt _ (by norm_num)
  unfold byte
  generalize n % 256 = m at h
  interval_cases m <;> rfl

theorem leBytes_length (k n : Nat) : (leBytes k n).length = k := by
  induction k generalizing n with
  | zero => rfl
  | succ k ih => simp [leBytes, ih]

theorem natBytes_length (be : Bool) (k n : Nat) : (natBytes be k n).length = k := by
  unfold natBytes
  split_ifs <;> simp [leBytes_length]

theorem leNat_leBytes (k n : Nat) (h : n < 256 ^ k) : leNat (leBytes k n) = n := by
  induction k generalizing n with
  | zero => simp at h; simp [leBytes, leNat, h]
  | succ k ih =>
    rw [leBytes, leNat, byte_toNat, ih _ (by rw [pow_succ] at h; exact Nat.div_lt_of_lt_mul (by linarith))]
    omega

theorem bytesNat_natBytes (be : Bool) (k n : Nat) (h : n < 256 ^ k) : bytesNat be (natBytes be k n) = n := by
  unfold bytesNat natBytes
  cases be <;> simp [leNat_leBytes k n h]

theorem bytesNat_swap (nb be : Bool) (k n : Nat) (h : n < 256 ^ k) :
    bytesNat nb (if nb ≠ be then (natBytes be k n).reverse else natBytes be k n) = n := by
  unfold bytesNat natBytes
  cases be <;> cases nb <;> simp [leNat_leBytes k n h]

theorem pow256 (k : Nat) : (256 : Nat) ^ k = 2 ^ (8 * k) := by rw [pow_mul]; norm_num

theorem value_raw {t : Ty} {v : Val} (h : ValOk t v) : value t (raw t v) = v ∧ raw t v < 256 ^ t.size := by
  cases v with
  | int z =>
    have h' : t.isFloat = false ∧ t.lo ≤ z ∧ z < t.hi := by cases t <;> simpa [ValOk] using h
    obtain ⟨h1, h2, h3⟩ := h'
    cases t <;> simp only [Ty.isFloat, Ty.lo, Ty.hi, Ty.isSigned, Ty.size, value, raw, if_true, if_false, Bool.false_eq_true] at * <;>
      norm_num at * <;> (try split_ifs) <;> (try refine ⟨?_, ?_⟩) <;> omega
  | f32 b => cases t <;> simp_all [ValOk, value, raw, Ty.size]
  | f64 b => cases t <;> simp_all [ValOk, value, raw, Ty.size]

theorem encVal_length (be : Bool) (t : Ty) (v : Val) : (encVal be t v).length = t.size := natBytes_length _ _ _

theorem npItem_encVal (nb be : Bool) {t : Ty} {v : Val} (h : ValOk t v) : npItem nb be t (encVal be t v) = v := by
  obtain ⟨h1, h2⟩ := value_raw h
  rw [npItem, encVal, bytesNat_swap nb be _ _ h2, h1]

theorem unpack_encVal (be : Bool) {t : Ty} {v : Val} (h : ValOk t v) : unpack be t (encVal be t v) = v := by
  obtain ⟨h1, h2⟩ := value_raw h
  rw [unpack, encVal, bytesNat_natBytes be _ _ h2, h1]

theorem read_append {n : Nat} {a : Str} (h : a.length = n) (s : Str) : read n (a ++ s) = .ok (a, s) := by
  subst h
  simp [read]

theorem chunks_flatten {α : Type} {n : Nat} {l : List (List α)} (h : ∀ b ∈ l, b.length = n) (s : List α) :
    chunks n l.length (l.flatten ++ s) = l := by
  induction l with
  | nil => rfl
  | cons b l ih =>
    simp only [List.mem_cons, forall_eq_or_imp] at h
    simp only [List.length_cons, chunks, List.flatten_cons, List.append_assoc]
    rw [← h.1, List.take_left, List.drop_left, h.1, ih h.2]

theorem flatten_length {α : Type} {n : Nat} {l : List (List α)} (h : ∀ b ∈ l, b.length = n) : l.flatten.length = l.length * n := by
  induction l with
  | nil => simp
  | cons b l ih =>
    simp only [List.mem_cons, forall_eq_or_imp] at h
    rw [List.flatten_cons, List.length_append, h.1, ih h.2, List.length_cons]
    ring

/-! ## The slow reader -/

theorem vals_back (nb be : Bool) {t : Ty} {vs : List Val} (h : ∀ v ∈ vs, ValOk t v) (s : Str) :
    (chunks t.size vs.length (vs.flatMap (encVal be t) ++ s)).map (npItem nb be t) = vs := by
  have := chunks_flatten (n := t.size) (l := vs.map (encVal be t)) (by simp [encVal_length]) s
  rw [List.length_map, ← List.flatMap_def] at this
  rw [this, List.map_map]
  conv_rhs => rw [← List.map_id vs]
  exact List.map_congr_left fun v hv => npItem_encVal nb be (h v hv)

theorem vals_length (be : Bool) (t : Ty) (vs : List Val) : (vs.flatMap (encVal be t)).length = t.size * vs.length := by
  rw [List.flatMap_def, flatten_length (n := t.size) (by simp [encVal_length]), List.length_map, Nat.mul_comm]

theorem listBin_enc (nb be : Bool) {t : Ty} {vs : List Val} (h : ∀ v ∈ vs, ValOk t v) (s : Str) :
    listBin nb be t vs.length (vs.flatMap (encVal be t) ++ s) = .ok (vs, s) := by
  have := vals_back nb be h []
  rw [List.append_nil] at this
  unfold listBin
  rw [read_append (vals_length be t vs)]
  simp only [bind, Except.bind, this]

/-- The length of a list is read exactly if its bytes are there and are those of an integer that is not negative. -/
theorem getLength_iff (be : Bool) (lt : Ty) (s t : Str) (n : Nat) :
    getLength be lt s = .ok (n, t) ↔ ∃ r, read lt.size s = .ok (r, t) ∧ unpack be lt r = .int n := by
  unfold getLength
  cases hr : read lt.size s with
  | error e => simp [bind, Except.bind]
  | ok r =>
    obtain ⟨r, u⟩ := r
    simp only [bind, Except.bind, Except.ok.injEq, Prod.mk.injEq]
    cases hu : unpack be lt r with
    | int z =>
      dsimp only
      constructor
      · intro h
        split_ifs at h with hz
        simp only [Except.ok.injEq, Prod.mk.injEq] at h
        refine ⟨r, ⟨rfl, h.2⟩, ?_⟩
        rw [hu, ← h.1, Int.toNat_of_nonneg (by omega)]
      · rintro ⟨r', ⟨rfl, rfl⟩, h⟩
        rw [hu] at h
        injection h with h
        subst h
        simp
    | _ =>
      dsimp only
      constructor
      · intro h; simp at h
      · rintro ⟨r', ⟨rfl, rfl⟩, h⟩
        rw [hu] at h
        simp at h

/-- A negative length is refused. -/
theorem getLength_negative (be : Bool) (lt : Ty) (s r t : Str) (z : Int) (hz : z < 0) (hr : read lt.size s = .ok (r, t))
    (hu : unpack be lt r = .int z) : getLength be lt s = .error .value := by
  unfold getLength
  rw [hr]
  simp [bind, Except.bind, hu, hz]

-- the byte 255 is a length as an unsigned byte and refused as a signed one
example : (getLength false .u8 (natBytes false 1 255)).toOption = some (255, []) ∧ getLength false .i8 (natBytes false 1 255) = .error .value := by
  decide

theorem getLength_enc (be : Bool) {lt : Ty} (hl : lt.isFloat = false) {n : Nat} (hn : (n : Int) < lt.hi) (s : Str) :
    getLength be lt (natBytes be lt.size n ++ s) = .ok (n, s) := by
  have hv : ValOk lt (.int n) := by
    have : lt.lo ≤ (n : Int) := le_trans (by unfold Ty.lo; split_ifs <;> simp) (Int.natCast_nonneg n)
    cases lt <;> simp_all [ValOk, Ty.isFloat]
  have hr : raw lt (.int n) = n := by
    have h2 : (n : Int) < 2 ^ (8 * lt.size) := lt_of_lt_of_le hn (by
      unfold Ty.hi
      split_ifs
      · exact pow_le_pow_right₀ (by norm_num) (by omega)
      · exact le_refl _)
    rw [raw, Int.emod_eq_of_lt (Int.natCast_nonneg n) h2, Int.toNat_natCast]
  have := unpack_encVal be hv
  rw [encVal, hr] at this
  unfold getLength
  rw [read_append (natBytes_length be lt.size n)]
  simp only [bind, Except.bind, this]
  rw [if_neg (by omega), Int.toNat_natCast]

theorem itemBin_enc (nb be : Bool) {p : Property} {it : Item Val} (h : Fits p it) (s : Str) :
    itemBin nb be p (encItem be p it ++ s) = .ok (it, s) := by
  obtain ⟨name, tn, t, lst⟩ := p
  cases lst with
  | none =>
    cases it with
    | num v =>
      simp only [Fits] at h
      simp only [itemBin, encItem]
      rw [read_append (encVal_length be t v)]
      simp only [bind, Except.bind, unpack_encVal be h]
    | list vs => exact absurd h (by simp [Fits])
  | some lt =>
    cases it with
    | num v => exact absurd h (by simp [Fits])
    | list vs =>
      simp only [Fits] at h
      simp only [itemBin, encItem, List.append_assoc]
      rw [getLength_enc be h.1 h.2.1]
      simp only [bind, Except.bind]
      rw [listBin_enc nb be h.2.2]

theorem rowBin_enc (nb be : Bool) {ps : List Property} {row : List (Item Val)} (h : List.Forall₂ Fits ps row) (s : Str) :
    rowBin nb be ps (encRow be ps row ++ s) = .ok (row, s) := by
  induction h generalizing s with
  | nil => rfl
  | @cons p it ps row hp h ih =>
    simp only [encRow, List.zipWith_cons_cons, List.flatten_cons, List.append_assoc, rowBin]
    rw [itemBin_enc nb be hp]
    simp only [bind, Except.bind]
    have := ih s
    rw [encRow] at this
    rw [this]

theorem rowsBin_enc (nb be : Bool) {ps : List Property} {rows : List (List (Item Val))} (h : ∀ r ∈ rows, List.Forall₂ Fits ps r) (s : Str) :
    rowsBin nb be ps rows.length (rows.flatMap (encRow be ps) ++ s) = .ok (rows, s) := by
  induction rows with
  | nil => rfl
  | cons r rows ih =>
    simp only [List.mem_cons, forall_eq_or_imp] at h
    simp only [List.length_cons, List.flatMap_cons, List.append_assoc, rowsBin]
    rw [rowBin_enc nb be h.1]
    simp only [bind, Except.bind]
    rw [ih h.2]

/-! ## Lists of one length -/

theorem constLoop_enc (nb be : Bool) {lt t : Ty} (hl : lt.isFloat = false) {l : List Val} {ls : List (List Val)}
    (h : ∀ v ∈ l, ValOk t v) (hs : ∀ l ∈ ls, (l.length : Int) < lt.hi ∧ ∀ v ∈ l, ValOk t v) (s : Str) :
    constLoop nb be lt t l.length (ls.length + 1)
      (l.flatMap (encVal be t) ++ (ls.flatMap (fun l => natBytes be lt.size l.length ++ l.flatMap (encVal be t)) ++ s)) =
    .ok (if ∀ m ∈ ls, m.length = l.length then some (l :: ls, s) else none) := by
  induction ls generalizing l with
  | nil =>
    simp only [List.length_nil, List.flatMap_nil, List.nil_append, constLoop]
    rw [listBin_enc nb be h]
    simp [bind, Except.bind]
  | cons m ls ih =>
    simp only [List.mem_cons, forall_eq_or_imp] at hs
    simp only [List.length_cons, List.flatMap_cons, List.append_assoc]
    rw [constLoop, listBin_enc nb be h]
    simp only [bind, Except.bind, Nat.add_eq_zero_iff, one_ne_zero, and_false, if_false]
    rw [getLength_enc be hl hs.1.1]
    simp only [List.mem_cons, forall_eq_or_imp]
    by_cases e : m.length = l.length
    · rw [if_neg (by simp [e]), ← e, ih hs.1.2 hs.2]
      split_ifs with h1 h2 h2
      · rfl
      · exact absurd ⟨rfl, h1⟩ h2
      · exact absurd h2.2 h1
      · rfl
    · rw [if_pos (by simpa using fun h => e h.symm), if_neg (by simp [e])]

/-! ## Arrays -/

theorem encRow_scalars (be : Bool) {ps : List Property} {row : List (Item Val)} (hf : ∀ p ∈ ps, p.lst = none)
    (h : List.Forall₂ Fits ps row) : ∃ vs : List Val, row = vs.map .num ∧ List.Forall₂ (fun p v => ValOk p.ty v) ps vs ∧
      encRow be ps row = (List.zipWith (fun t v => encVal be t v) (ps.map (·.ty)) vs).flatten := by
  induction h with
  | nil => exact ⟨[], rfl, .nil, rfl⟩
  | @cons p it ps row hp h ih =>
    simp only [List.mem_cons, forall_eq_or_imp] at hf
    obtain ⟨vs, h1, h2, h3⟩ := ih hf.2
    have hl := hf.1
    cases it with
    | num v =>
      simp only [Fits, hl] at hp
      refine ⟨v :: vs, by simp [h1], .cons hp h2, ?_⟩
      simp only [encRow, List.zipWith_cons_cons, List.flatten_cons, List.map_cons, encItem, hl] at h3 ⊢
      rw [h3]
    | list l => exact absurd hp (by simp [Fits, hl])

theorem rows_scalars (be : Bool) {ps : List Property} {rows : List (List (Item Val))} (hf : ∀ p ∈ ps, p.lst = none)
    (h : ∀ r ∈ rows, List.Forall₂ Fits ps r) : ∃ vss : List (List Val), rows = vss.map (·.map .num) ∧
      (∀ vs ∈ vss, List.Forall₂ (fun t v => ValOk t v) (ps.map (·.ty)) vs) ∧
      rows.flatMap (encRow be ps) = vss.flatMap fun vs => (List.zipWith (fun t v => encVal be t v) (ps.map (·.ty)) vs).flatten := by
  induction rows with
  | nil => exact ⟨[], rfl, by simp, rfl⟩
  | cons r rows ih =>
    simp only [List.mem_cons, forall_eq_or_imp] at h
    obtain ⟨vss, h1, h2, h3⟩ := ih h.2
    obtain ⟨vs, g1, g2, g3⟩ := encRow_scalars be hf h.1
    refine ⟨vs :: vss, by simp [h1, g1], ?_, by simp only [List.flatMap_cons, h3, g3]⟩
    simp only [List.mem_cons, forall_eq_or_imp]
    exact ⟨by rwa [List.forall₂_map_left_iff], h2⟩

theorem zipWith_replicate (be : Bool) (t : Ty) (vs : List Val) :
    List.zipWith (fun t v => encVal be t v) (List.replicate vs.length t) vs = vs.map (encVal be t) := by
  induction vs with
  | nil => rfl
  | cons v vs ih => simp [List.replicate_succ, ih]

theorem sideBySide_one {N : Type} (a : List (List N)) : sideBySide a.length [a] = a := by
  simp only [sideBySide]
  induction a with
  | nil => rfl
  | cons r a ih => simp [List.replicate_succ, ih]

theorem fixedBin_enc (nb be : Bool) {e : Elem} {t : Ty} {vss : List (List Val)} (hc : vss.length = e.count)
    (h : ∀ vs ∈ vss, vs.length = e.props.length ∧ ∀ v ∈ vs, ValOk t v) (s : Str) :
    fixedBin nb be e t ((vss.flatMap fun vs => vs.flatMap (encVal be t)) ++ s) = .ok (.pieces [vss], s) := by
  have hv : ∀ v ∈ vss.flatten, ValOk t v := by
    intro v hv
    obtain ⟨vs, hvs, hv⟩ := List.mem_flatten.mp hv
    exact (h vs hvs).2 v hv
  have hn : vss.flatten.length = e.count * e.props.length := by
    rw [flatten_length fun vs hvs => (h vs hvs).1, hc]
  have e1 : (vss.flatMap fun vs => vs.flatMap (encVal be t)) = vss.flatten.flatMap (encVal be t) := by
    clear h hc hv hn
    induction vss with
    | nil => rfl
    | cons vs vss ih => simp only [List.flatMap_cons, List.flatten_cons, List.flatMap_append, ih]
  rw [e1]
  unfold fixedBin
  rw [read_append (by rw [vals_length, hn, Nat.mul_comm])]
  simp only [bind, Except.bind]
  have := vals_back nb be hv []
  rw [List.append_nil, hn] at this
  rw [this]
  have := chunks_flatten (fun vs hvs => (h vs hvs).1) []
  rw [List.append_nil, hc] at this
  rw [this]

/-- The types of the groups. -/
def expand : List (Str × Ty × Nat) → List Ty
  | [] => []
  | (_, t, k) :: g => List.replicate k t ++ expand g

theorem expand_groups {ps : List Property} (h : ∀ p ∈ ps, plyTy p.tname = some p.ty) :
    expand (groups ps) = ps.map (·.ty) ∧ ∀ g ∈ groups ps, plyTy g.1 = some g.2.1 := by
  induction ps with
  | nil => exact ⟨rfl, by simp [groups]⟩
  | cons p ps ih =>
    simp only [List.mem_cons, forall_eq_or_imp] at h
    obtain ⟨h1, h2⟩ := ih h.2
    simp only [groups]
    cases hg : groups ps with
    | nil =>
      rw [hg] at h1
      simp only [expand] at h1
      simp [expand, ← h1, h.1]
    | cons g gs =>
      obtain ⟨n, t, k⟩ := g
      rw [hg] at h1 h2
      simp only [List.mem_cons, forall_eq_or_imp] at h2
      simp only [expand] at h1
      simp only
      by_cases e : p.tname = n
      · rw [if_pos e]
        have : p.ty = t := by
          have := h.1
          rw [e, h2.1] at this
          exact (Option.some.inj this).symm
        simp only [expand, List.replicate_succ, List.cons_append, h1, List.map_cons, this, List.mem_cons, forall_eq_or_imp]
        exact ⟨trivial, h2⟩
      · rw [if_neg e]
        simp only [expand, List.replicate_succ, List.replicate_zero, List.cons_append, List.nil_append, h1, List.map_cons, List.mem_cons, forall_eq_or_imp]
        exact ⟨trivial, h.1, h2⟩

theorem groups_one {ps : List Property} (h : ∀ p ∈ ps, plyTy p.tname = some p.ty) (hl : (groups ps).length = 1) :
    ∀ p ∈ ps, ∀ q ∈ ps, p.ty = q.ty := by
  obtain ⟨h1, -⟩ := expand_groups h
  obtain ⟨⟨n, t, k⟩, hg⟩ := List.length_eq_one_iff.mp hl
  rw [hg] at h1
  simp only [expand, List.append_nil] at h1
  have key : ∀ p ∈ ps, p.ty = t := fun p hp => by
    have : p.ty ∈ ps.map (·.ty) := List.mem_map_of_mem hp
    rw [← h1] at this
    exact List.eq_of_mem_replicate this
  intro p hp q hq
  rw [key p hp, key q hq]

theorem isConst_iff {e : Elem} (hne : e.props ≠ []) : e.isConst = true ↔ e.isFixed = true ∧ ∀ p ∈ e.props, ∀ q ∈ e.props, p.ty = q.ty := by
  obtain ⟨n, c, ps⟩ := e
  cases ps with
  | nil => simp at hne
  | cons p ps =>
    simp only [Elem.isConst, Bool.and_eq_true, List.all_eq_true, decide_eq_true_eq, List.mem_cons, forall_eq_or_imp]
    constructor
    · rintro ⟨h, h'⟩
      refine ⟨h, ⟨trivial, fun q hq => (h' q hq).symm⟩, fun q hq => ⟨h' q hq, fun r hr => ?_⟩⟩
      rw [h' q hq, h' r hr]
    · rintro ⟨h, -, h'⟩
      exact ⟨h, fun q hq => (h' q hq).1⟩

/-- Rows of values of the types `ts`. -/
theorem piecesBin_enc (nb be : Bool) (g : List (Str × Ty × Nat)) {vss : List (List Val)}
    (h : ∀ vs ∈ vss, List.Forall₂ (fun t v => ValOk t v) (expand g) vs) :
    let ps := piecesBin nb be g (vss.map fun vs => (List.zipWith (fun t v => encVal be t v) (expand g) vs).flatten)
    ps.length = g.length ∧ (∀ a ∈ ps, a.length = vss.length ∧ ∀ r ∈ a, r.length = width a) ∧ sideBySide vss.length ps = vss := by
  induction g generalizing vss with
  | nil =>
    refine ⟨rfl, by simp [piecesBin], ?_⟩
    simp only [piecesBin, sideBySide]
    refine (List.eq_replicate_of_mem fun vs hvs => ?_).symm
    have := h vs hvs
    simp only [expand, List.forall₂_nil_left_iff] at this
    exact this
  | cons g gs ih =>
    obtain ⟨n, t, k⟩ := g
    have hsplit : ∀ vs ∈ vss, (∀ v ∈ vs.take k, ValOk t v) ∧ (vs.take k).length = k ∧
        List.Forall₂ (fun t v => ValOk t v) (expand gs) (vs.drop k) ∧
        (List.zipWith (fun t v => encVal be t v) (expand ((n, t, k) :: gs)) vs).flatten =
          (vs.take k).flatMap (encVal be t) ++ (List.zipWith (fun t v => encVal be t v) (expand gs) (vs.drop k)).flatten := by
      intro vs hvs
      have h0 := h vs hvs
      have hlen := h0.length_eq
      simp only [expand, List.length_append, List.length_replicate] at hlen
      have hk : (vs.take k).length = k := by rw [List.length_take]; omega
      have h1 := List.forall₂_take k h0
      have h2 := List.forall₂_drop k h0
      simp only [expand, List.take_left' (List.length_replicate (n := k) (a := t)), List.drop_left' (List.length_replicate (n := k) (a := t))] at h1 h2
      refine ⟨?_, hk, h2, ?_⟩
      · intro v hv
        obtain ⟨i, hi, rfl⟩ := List.getElem_of_mem hv
        have := (List.forall₂_iff_get.mp h1).2 i (by simp; omega) hi
        simpa using this
      · simp only [expand]
        conv_lhs => rw [← List.take_append_drop k vs]
        rw [List.zipWith_append (by simp [hk]), List.flatten_append]
        have := zipWith_replicate be t (vs.take k)
        rw [hk] at this
        rw [this, List.flatMap_def]
    have hrows : (vss.map fun vs => (List.zipWith (fun t v => encVal be t v) (expand ((n, t, k) :: gs)) vs).flatten) =
        vss.map fun vs => (vs.take k).flatMap (encVal be t) ++ (List.zipWith (fun t v => encVal be t v) (expand gs) (vs.drop k)).flatten :=
      List.map_congr_left fun vs hvs => (hsplit vs hvs).2.2.2
    have hhead : ((vss.map fun vs => (vs.take k).flatMap (encVal be t) ++ (List.zipWith (fun t v => encVal be t v) (expand gs) (vs.drop k)).flatten).map
        fun r => (chunks t.size k r).map (npItem nb be t)) = vss.map (·.take k) := by
      rw [List.map_map]
      refine List.map_congr_left fun vs hvs => ?_
      have := vals_back nb be (hsplit vs hvs).1 (List.zipWith (fun t v => encVal be t v) (expand gs) (vs.drop k)).flatten
      rw [(hsplit vs hvs).2.1] at this
      exact this
    have htail : ((vss.map fun vs => (vs.take k).flatMap (encVal be t) ++ (List.zipWith (fun t v => encVal be t v) (expand gs) (vs.drop k)).flatten).map
        fun r => r.drop (k * t.size)) = (vss.map (·.drop k)).map fun vs => (List.zipWith (fun t v => encVal be t v) (expand gs) vs).flatten := by
      rw [List.map_map, List.map_map]
      refine List.map_congr_left fun vs hvs => ?_
      simp only [Function.comp]
      exact List.drop_left' (by rw [vals_length, (hsplit vs hvs).2.1, Nat.mul_comm])
    obtain ⟨i1, i2, i3⟩ := ih (vss := vss.map (·.drop k)) (by
      intro vs hvs
      obtain ⟨w, hw, rfl⟩ := List.mem_map.mp hvs
      exact (hsplit w hw).2.2.1)
    simp only [List.length_map] at i1 i2 i3
    simp only [piecesBin]
    rw [hrows, hhead, htail]
    refine ⟨by rw [List.length_cons, List.length_cons, i1], ?_, ?_⟩
    · intro a ha
      rcases List.mem_cons.mp ha with rfl | ha
      · refine ⟨by simp, fun r hr => ?_⟩
        have hw : ∀ r ∈ vss.map (·.take k), r.length = k := by
          intro r hr
          obtain ⟨w, hw, rfl⟩ := List.mem_map.mp hr
          exact (hsplit w hw).2.1
        rw [hw r hr, width]
        cases hv : vss.map (·.take k) with
        | nil => rw [hv] at hr; simp at hr
        | cons b bs => exact (hw b (by rw [hv]; simp)).symm
      · exact i2 a ha
    · rw [sideBySide, i3]
      clear * -
      induction vss with
      | nil => rfl
      | cons v vss ih => simp [ih]

theorem isFixed_iff {e : Elem} : e.isFixed = true ↔ ∀ p ∈ e.props, p.lst = none := by
  simp [Elem.isFixed, List.all_eq_true]

theorem nolistBin_enc (nb be : Bool) {e : Elem} (hwf : WF e) {vss : List (List Val)} (hc : vss.length = e.count)
    (h : ∀ vs ∈ vss, List.Forall₂ (fun t v => ValOk t v) (e.props.map (·.ty)) vs) (s : Str) :
    ∃ ps, nolistBin nb be e ((vss.flatMap fun vs => (List.zipWith (fun t v => encVal be t v) (e.props.map (·.ty)) vs).flatten) ++ s) = .ok (.pieces ps, s) ∧
      ps.length = (groups e.props).length ∧ (∀ a ∈ ps, a.length = vss.length ∧ ∀ r ∈ a, r.length = width a) ∧ sideBySide vss.length ps = vss := by
  have hg := (expand_groups hwf.2).1
  have hsz : ∀ vs ∈ vss, (List.zipWith (fun t v => encVal be t v) (e.props.map (·.ty)) vs).flatten.length = (e.props.map fun p => p.ty.size).sum := by
    intro vs hvs
    have h0 := h vs hvs
    have : ∀ (ts : List Ty) (vs : List Val), List.Forall₂ (fun t v => ValOk t v) ts vs →
        (List.zipWith (fun t v => encVal be t v) ts vs).flatten.length = (ts.map Ty.size).sum := by
      intro ts vs h
      induction h with
      | nil => rfl
      | cons _ _ ih => simp only [List.zipWith_cons_cons, List.flatten_cons, List.length_append, ih, List.map_cons, List.sum_cons, encVal_length]
    rw [this _ _ h0, List.map_map]
    rfl
  have hp := piecesBin_enc nb be (groups e.props) (vss := vss) (by rw [hg]; exact h)
  simp only [hg] at hp
  refine ⟨_, ?_, hp⟩
  simp only [nolistBin]
  rw [List.flatMap_def, read_append]
  · simp only [bind, Except.bind]
    have := chunks_flatten (l := vss.map fun vs => (List.zipWith (fun t v => encVal be t v) (e.props.map (·.ty)) vs).flatten)
      (n := (e.props.map fun p => p.ty.size).sum) (by
        intro b hb
        obtain ⟨vs, hvs, rfl⟩ := List.mem_map.mp hb
        exact hsz vs hvs) []
    rw [List.append_nil, List.length_map, hc] at this
    rw [this]
  · rw [flatten_length (n := (e.props.map fun p => p.ty.size).sum), List.length_map, hc, Nat.mul_comm]
    intro b hb
    obtain ⟨vs, hvs, rfl⟩ := List.mem_map.mp hb
    exact hsz vs hvs

/-- **Reading of binary elements.**  Whatever the byte order of the file (`be`) and of the machine (`nb`), the types and numbers of
the properties, and whether there are lists, of one length or not: the bytes of a table are read as this table, and the
bytes after it are left. -/
theorem elemBin_spec (nb be : Bool) {e : Elem} (hwf : WF e) {rows : List (List (Item Val))} (hc : rows.length = e.count)
    (h : ∀ r ∈ rows, List.Forall₂ Fits e.props r) (s : Str) :
    ∃ d, elemBin nb be e (rows.flatMap (encRow be e.props) ++ s) = .ok (d, s) ∧ Holds e d rows := by
  unfold elemBin
  by_cases h0 : e.count = 0
  · rw [if_pos h0]
    rw [h0] at hc
    have := List.eq_nil_of_length_eq_zero hc
    subst this
    exact ⟨_, rfl, .inl h0, rfl⟩
  rw [if_neg h0]
  have hslow : e.isFixed = false →
      ∃ d, slowBin nb be e (rows.flatMap (encRow be e.props) ++ s) = .ok (d, s) ∧ Holds e d rows := by
    intro hf
    refine ⟨.rows rows, ?_, .inr hf, rfl⟩
    unfold slowBin
    rw [← hc, rowsBin_enc nb be h]
    rfl
  by_cases h1 : e.isConst = true
  · rw [if_pos h1]
    obtain ⟨hf, ht⟩ := (isConst_iff hwf.1).mp h1
    obtain ⟨vss, g1, g2, g3⟩ := rows_scalars be (isFixed_iff.mp hf) h
    have hty : e.props.map (·.ty) = List.replicate e.props.length (ty0 e) := by
      rw [List.eq_replicate_iff]
      refine ⟨by simp, fun t ht' => ?_⟩
      obtain ⟨p, hp, rfl⟩ := List.mem_map.mp ht'
      obtain ⟨q, qs, hq⟩ := List.exists_cons_of_ne_nil hwf.1
      rw [ty0, hq]
      exact ht p hp q (by rw [hq]; simp)
    have hv : ∀ vs ∈ vss, vs.length = e.props.length ∧ ∀ v ∈ vs, ValOk (ty0 e) v := by
      intro vs hvs
      have h2 := g2 vs hvs
      rw [hty] at h2
      have hl := h2.length_eq
      rw [List.length_replicate] at hl
      refine ⟨hl.symm, fun v hv => ?_⟩
      obtain ⟨i, hi, rfl⟩ := List.getElem_of_mem hv
      have := (List.forall₂_iff_get.mp h2).2 i (by simp; omega) hi
      simpa using this
    have e2 : (vss.flatMap fun vs => (List.zipWith (fun t v => encVal be t v) (e.props.map (·.ty)) vs).flatten) =
        vss.flatMap fun vs => vs.flatMap (encVal be (ty0 e)) := by
      rw [List.flatMap_def, List.flatMap_def]
      congr 1
      refine List.map_congr_left fun vs hvs => ?_
      rw [hty, ← (hv vs hvs).1, zipWith_replicate, List.flatMap_def]
    have hcv : vss.length = e.count := by rw [← hc, g1, List.length_map]
    rw [g3, e2]
    refine ⟨_, fixedBin_enc nb be hcv hv s, ?_⟩
    refine ⟨hf, by simp [h1], ?_, ?_⟩
    · intro a ha
      simp only [List.mem_singleton] at ha
      subst ha
      refine ⟨hcv, fun r hr => ?_⟩
      rw [(hv r hr).1, width]
      cases a with
      | nil => simp at hr
      | cons b bs => exact ((hv b (by simp)).1).symm
    · rw [← hcv, sideBySide_one, g1]
  rw [if_neg h1]
  by_cases h2 : e.isFixed = true
  · rw [if_pos h2]
    obtain ⟨vss, g1, g2, g3⟩ := rows_scalars be (isFixed_iff.mp h2) h
    have hcv : vss.length = e.count := by rw [← hc, g1, List.length_map]
    rw [g3]
    obtain ⟨ps, p1, p2, p3, p4⟩ := nolistBin_enc nb be hwf hcv g2 s
    refine ⟨_, p1, h2, ?_, ?_, ?_⟩
    · rw [p2]
      refine ⟨fun hg => ?_, fun hg => absurd hg h1⟩
      exact absurd ((isConst_iff hwf.1).mpr ⟨h2, groups_one hwf.2 hg⟩) h1
    · rw [← hcv]
      exact p3
    · rw [← hcv, p4, g1]
  rw [if_neg h2]
  by_cases h3 : e.tryList = true
  · rw [if_pos h3]
    obtain ⟨n, c, ps⟩ := e
    obtain ⟨p, rfl⟩ : ∃ p, ps = [p] := by
      unfold Elem.tryList at h3
      match ps, h3 with
      | [p], _ => exact ⟨p, rfl⟩
    obtain ⟨pn, tn, t, lst⟩ := p
    cases lst with
    | none => simp [Elem.tryList] at h3
    | some lt =>
      simp only at hc h hslow h0 ⊢
      have hl : ∃ ls : List (List Val), rows = ls.map (fun l => [.list l]) ∧
          ∀ l ∈ ls, lt.isFloat = false ∧ (l.length : Int) < lt.hi ∧ ∀ v ∈ l, ValOk t v := by
        clear hc hslow
        induction rows with
        | nil => exact ⟨[], rfl, by simp⟩
        | cons r rows ih =>
          simp only [List.mem_cons, forall_eq_or_imp] at h
          obtain ⟨ls, g1, g2⟩ := ih h.2
          obtain ⟨it, its, hit, hits, rfl⟩ := List.forall₂_cons_left_iff.mp h.1
          rw [List.forall₂_nil_left_iff] at hits
          subst hits
          cases it with
          | num v => simp [Fits] at hit
          | list l =>
            simp only [Fits] at hit
            exact ⟨l :: ls, by simp [g1], by simpa using ⟨hit, g2⟩⟩
      obtain ⟨ls, g1, g2⟩ := hl
      have henc : rows.flatMap (encRow be [⟨pn, tn, t, some lt⟩]) =
          ls.flatMap fun l => natBytes be lt.size l.length ++ l.flatMap (encVal be t) := by
        rw [g1, List.flatMap_map]
        simp [encRow, encItem]
      cases hls : ls with
      | nil => rw [g1, hls] at hc; simp at hc; omega
      | cons l ls' =>
        have hcount : c = ls'.length + 1 := by rw [← hc, g1, hls]; simp
        rw [hls] at g2
        simp only [List.mem_cons, forall_eq_or_imp] at g2
        have key : constBin nb be lt t c (rows.flatMap (encRow be [⟨pn, tn, t, some lt⟩]) ++ s) =
            .ok (if ∀ m ∈ ls', m.length = l.length then some (l :: ls', s) else none) := by
          rw [henc, hls, hcount]
          simp only [List.flatMap_cons, List.append_assoc, constBin]
          rw [getLength_enc be g2.1.1 g2.1.2.1]
          simp only [bind, Except.bind]
          exact constLoop_enc nb be g2.1.1 g2.1.2.2 (fun m hm => (g2.2 m hm).2) s
        simp only [lst0, ty0, List.headD_cons, Option.getD_some]
        rw [key]
        simp only [bind, Except.bind]
        split_ifs with hall
        · refine ⟨_, rfl, by simpa using h2, h0, ?_, ?_⟩
          · rw [g1, hls]
          · intro r hr
            simp only [width, List.headD_cons]
            rcases List.mem_cons.mp hr with rfl | hr
            · rfl
            · exact hall r hr
        · exact hslow (by simpa using h2)
  · rw [if_neg h3]
    exact hslow (by simpa using h2)

end P3D.Ply
