/-
`TensorProperties` (`renderer/utils.py:89-282`), its index accessor `TensorAccessor` (`renderer/utils.py:22-83`) and
`convert_to_tensors_and_broadcast` (`renderer/utils.py:285-357`): the base class of the lights, the materials and the cameras.

Memory is modelled: a tensor is a list of the addresses of its rows (one per batch element), so that expanded tensors share a row and a
tensor handed to the constructor is the one which is kept.  A row (everything after the first dimension) is an opaque value.
Devices, dtypes and autograd are not modelled; a tensor on another device is copied by `format_tensor`, here all tensors are on the
device of the object.  `batch_idx` has one dimension (its expansion to the trailing dimensions of a property is then always possible).
PyTorch's rule used here: storing to a slice in which two elements share memory is an error; storing to a single row is not.
-/
import Mathlib.Data.List.Nodup
import Mathlib.Data.List.GetD
import Mathlib.Data.List.MinMax
import Mathlib.Data.List.Range
import Mathlib.Logic.Function.Basic
import Mathlib.Tactic.Ring

set_option linter.unusedSectionVars false

namespace P3D.TProps

inductive Err
  | value | index | runtime | attribute | undefined
  deriving DecidableEq, Repr

/-- Tensor memory: the row stored at each address below `next`. -/
structure Heap (α : Type) where
  next : Nat
  row : Nat → α

/-- A tensor: the address of the row of each batch element. -/
abbrev View := List Nat

/-- A keyword argument of the constructor (utils.py:118-126): a scalar or list or array (of which a new tensor is made), an existing
tensor, or `None`, a string or a bool.  A scalar, like a tensor without dimensions, has one row. -/
inductive Arg (α : Type)
  | value (rows : List α)
  | tensor (v : View)
  | plain (s : String)
  deriving Repr

inductive Attr
  | tensor (v : View)
  | plain (s : String)
  deriving DecidableEq, Repr

/-- An object: its attributes and `_N`. -/
structure Props where
  attrs : List (String × Attr)
  n : Nat
  deriving DecidableEq, Repr

variable {α : Type}

/-- A new tensor with the given rows. -/
def alloc (h : Heap α) (rows : List α) : Heap α × View :=
  (⟨h.next + rows.length, fun a => if a < h.next then h.row a else (rows[a - h.next]?).getD (h.row a)⟩,
   (List.range rows.length).map (h.next + ·))

/-- The contents of a tensor. -/
def rows (h : Heap α) (v : View) : List α := v.map h.row

/-- utils.py:285-311 `format_tensor`: a tensor is returned as it is. -/
def formatTensor (h : Heap α) : Arg α → Heap α × Attr
  | .value r => ((alloc h r).1, .tensor (alloc h r).2)
  | .tensor v => (h, .tensor v)
  | .plain s => (h, .plain s)

/-- utils.py:336, and the distribution of the arguments in 118-126. -/
def formatAll (h : Heap α) : List (String × Arg α) → Heap α × List (String × Attr)
  | [] => (h, [])
  | (k, a) :: t =>
    let r := formatTensor h a
    let s := formatAll r.1 t
    (s.1, (k, r.2) :: s.2)

/-- `c.shape[0]`. -/
def attrSize : Attr → Option Nat
  | .tensor v => some v.length
  | .plain _ => none

/-- utils.py:339 `sizes`. -/
def sizes (l : List (String × Attr)) : List Nat := l.filterMap fun p => attrSize p.2

/-- utils.py:343-350: one argument of `convert_to_tensors_and_broadcast`; `expand` repeats the only row without copying it. -/
def broadcast (N : Nat) : Attr → Except Err Attr
  | .plain s => .ok (.plain s)
  | .tensor v =>
    if v.length ≠ 1 ∧ v.length ≠ N then .error .value
    else .ok (.tensor (if v.length = N then v else List.replicate N (v.headD 0)))

/-- One named attribute. -/
def broadcastOne (N : Nat) (p : String × Attr) : Except Err (String × Attr) :=
  (broadcast N p.2).map fun a => (p.1, a)

/-- utils.py:94-140 `TensorProperties.__init__` (`_N` is the common batch size, 0 if nothing is broadcast). -/
def init (h : Heap α) (kw : List (String × Arg α)) : Except Err (Heap α × Props) :=
  let f := formatAll h kw
  let N := (sizes f.2).foldl max 0
  (f.2.mapM (broadcastOne N)).map fun attrs => (f.1, ⟨attrs, N⟩)

/-- `__dict__[name]`. -/
def attr (p : Props) (name : String) : Option Attr := p.attrs.lookup name

/-- What the attribute is: its rows. -/
def read (h : Heap α) (p : Props) (name : String) : Option (List α) :=
  match attr p name with
  | some (.tensor v) => some (rows h v)
  | _ => none

/-- The index given to `__getitem__` (utils.py:148-163): an int or a slice. -/
inductive Index
  | int (i : Int)
  | slice (start stop : Option Int) (step : Nat)
  deriving DecidableEq, Repr

/-- A bound of a slice of a sequence of length `n`. -/
def bound (n : Nat) (d : Nat) : Option Int → Nat
  | none => d
  | some i => min n (if i < 0 then (i + n).toNat else i.toNat)

/-- The positions which an index selects in a tensor of length `n`. -/
def positions (n : Nat) : Index → Except Err (List Nat)
  | .int i => if -(n : Int) ≤ i ∧ i < n then .ok [(if i < 0 then i + n else i).toNat] else .error .index
  | .slice a b s =>
    if s = 0 then .error .value
    else
      let lo := bound n 0 a
      let hi := bound n n b
      .ok ((List.range ((hi - lo + s - 1) / s)).map fun k => lo + k * s)

/-- The value assigned through an accessor: one row, or a tensor with a batch dimension. -/
inductive Val (α : Type)
  | one (r : α)
  | batch (r : List α)
  deriving Repr

/-- The rows which are stored when `k` rows are assigned (broadcasting of the value). -/
def Val.spread (k : Nat) : Val α → Except Err (List α)
  | .one r => .ok (List.replicate k r)
  | .batch [r] => .ok (List.replicate k r)
  | .batch l => if l.length = k then .ok l else .error .runtime

/-- Stores in order. -/
def store (m : Nat → α) : List (Nat × α) → Nat → α
  | [] => m
  | (a, x) :: t => store (Function.update m a x) t

/-- utils.py:42-71 `TensorAccessor.__setattr__`: the assignment `obj[index].name = value`. -/
def setItem (h : Heap α) (p : Props) (ix : Index) (name : String) (x : Val α) : Except Err (Heap α) :=
  match attr p name with
  | some (.tensor v) => do
    let pos ← positions v.length ix
    let target := pos.map fun i => v.getD i 0
    let new ← x.spread target.length
    if target.Nodup then .ok { h with row := store h.row (target.zip new) } else .error .runtime
  | _ => .error .attribute

/-- utils.py:74-83 `TensorAccessor.__getattr__`: the value of `obj[index].name`. -/
def getItem (h : Heap α) (p : Props) (ix : Index) (name : String) : Except Err (List α) :=
  match attr p name with
  | some (.tensor v) => do
    let pos ← positions v.length ix
    .ok (pos.map fun i => h.row (v.getD i 0))
  | some (.plain _) => .error .undefined
  | none => .error .attribute

/-- utils.py:186-199 `clone`, one attribute: `v.clone()` of a tensor is a new tensor of separate rows. -/
def cloneAttrs (h : Heap α) : List (String × Attr) → Heap α × List (String × Attr)
  | [] => (h, [])
  | (k, .plain s) :: t => let r := cloneAttrs h t; (r.1, (k, .plain s) :: r.2)
  | (k, .tensor v) :: t =>
    let a := alloc h (rows h v)
    let r := cloneAttrs a.1 t
    (r.1, (k, .tensor a.2) :: r.2)

def clone (h : Heap α) (p : Props) : Heap α × Props :=
  let r := cloneAttrs h p.attrs
  (r.1, ⟨r.2, p.n⟩)

/-- utils.py:253-281 `gather_props`, the loop.  Tensors with at most one row are left as they are. -/
def gatherAttrs (h : Heap α) (idx : List Nat) : List (String × Attr) → Except Err (Heap α × List (String × Attr))
  | [] => .ok (h, [])
  | (k, .plain s) :: t => (gatherAttrs h idx t).map fun r => (r.1, (k, .plain s) :: r.2)
  | (k, .tensor v) :: t =>
    if 1 < v.length then
      if ∀ i ∈ idx, i < v.length then
        let a := alloc h (idx.map fun i => h.row (v.getD i 0))
        (gatherAttrs a.1 idx t).map fun r => (r.1, (k, .tensor a.2) :: r.2)
      else .error .runtime
    else (gatherAttrs h idx t).map fun r => (r.1, (k, .tensor v) :: r.2)

/-- utils.py:201-282 `gather_props` (in place; `_N` is not touched). -/
def gatherProps (h : Heap α) (p : Props) (idx : List Nat) : Except Err (Heap α × Props) :=
  (gatherAttrs h idx p.attrs).map fun r => (r.1, ⟨r.2, p.n⟩)

/-! ### Memory -/

theorem alloc_old (h : Heap α) (r : List α) {a : Nat} (ha : a < h.next) : (alloc h r).1.row a = h.row a := by
  simp [alloc, ha]

theorem alloc_next (h : Heap α) (r : List α) : (alloc h r).1.next = h.next + r.length := rfl

theorem alloc_rows (h : Heap α) (r : List α) : rows (alloc h r).1 (alloc h r).2 = r := by
  apply List.ext_getElem
  · simp [rows, alloc]
  · intro i h1 h2
    simp [rows, alloc, h2]

theorem alloc_nodup (h : Heap α) (r : List α) : (alloc h r).2.Nodup := by
  unfold alloc
  exact List.nodup_range.map (fun a b hab => by simpa using hab)

theorem alloc_length (h : Heap α) (r : List α) : (alloc h r).2.length = r.length := by simp [alloc]

theorem alloc_mem {h : Heap α} {r : List α} {a : Nat} (ha : a ∈ (alloc h r).2) : h.next ≤ a ∧ a < h.next + r.length := by
  simp only [alloc, List.mem_map, List.mem_range] at ha
  obtain ⟨b, hb, rfl⟩ := ha
  omega

theorem rows_length (h : Heap α) (v : View) : (rows h v).length = v.length := by simp [rows]

theorem rows_congr {h h' : Heap α} {v : View} (e : ∀ a ∈ v, h'.row a = h.row a) : rows h' v = rows h v :=
  List.map_congr_left e

/-! ### The constructor -/

/-- The rows an argument stands for before the constructor runs. -/
def argRows (h : Heap α) : Arg α → Option (List α)
  | .value r => some r
  | .tensor v => some (rows h v)
  | .plain _ => none

/-- Tensors handed over exist. -/
def ArgOk (h : Heap α) : Arg α → Prop
  | .tensor v => ∀ a ∈ v, a < h.next
  | _ => True

/-- How an argument is kept: a new tensor of separate rows, the tensor itself, or the plain value. -/
def Kept (h h' : Heap α) (a : Arg α) (t : Attr) : Prop :=
  match a, t with
  | .value r, .tensor v => rows h' v = r ∧ v.Nodup ∧ ∀ x ∈ v, h.next ≤ x ∧ x < h'.next
  | .tensor v, .tensor w => w = v
  | .plain s, .plain s' => s' = s
  | _, _ => False

theorem formatAll_next (h : Heap α) (kw : List (String × Arg α)) : h.next ≤ (formatAll h kw).1.next := by
  induction kw generalizing h with
  | nil => simp [formatAll]
  | cons p t ih =>
    obtain ⟨k, a⟩ := p
    refine le_trans ?_ (ih _)
    cases a <;> simp [formatTensor, alloc]

theorem formatAll_old (h : Heap α) (kw : List (String × Arg α)) {a : Nat} (ha : a < h.next) :
    (formatAll h kw).1.row a = h.row a := by
  induction kw generalizing h with
  | nil => simp [formatAll]
  | cons p t ih =>
    obtain ⟨k, x⟩ := p
    cases x with
    | value r =>
      change (formatAll (alloc h r).1 t).1.row a = _
      rw [ih _ (by rw [alloc_next]; omega), alloc_old _ _ ha]
    | tensor v => exact ih h ha
    | plain s => exact ih h ha

theorem Kept.later {h h0 h1 h2 : Heap α} {a : Arg α} {t : Attr} (hk : Kept h0 h1 a t) (h0' : h.next ≤ h0.next)
    (hn : h1.next ≤ h2.next) (e : ∀ x < h1.next, h2.row x = h1.row x) : Kept h h2 a t := by
  cases a <;> cases t <;> simp only [Kept] at hk ⊢
  · obtain ⟨a1, a2, a3⟩ := hk
    refine ⟨?_, a2, fun x hx => ⟨by have := a3 x hx; omega, by have := a3 x hx; omega⟩⟩
    rw [← a1]
    exact rows_congr fun x hx => e x (a3 x hx).2
  · exact hk
  · exact hk

/-- `convert_to_tensors_and_broadcast` first makes tensors: names and order are kept, new tensors are separate from everything there was. -/
theorem formatAll_spec (h : Heap α) (kw : List (String × Arg α)) :
    List.Forall₂ (fun p q => q.1 = p.1 ∧ Kept h (formatAll h kw).1 p.2 q.2) kw (formatAll h kw).2 := by
  induction kw generalizing h with
  | nil => simp [formatAll]
  | cons p t ih =>
    obtain ⟨k, a⟩ := p
    refine List.Forall₂.cons ⟨rfl, ?_⟩ ?_
    · have hk : Kept h (formatTensor h a).1 a (formatTensor h a).2 := by
        cases a with
        | value r =>
          refine ⟨alloc_rows h r, alloc_nodup h r, fun x hx => ?_⟩
          have := alloc_mem hx
          simp only [formatTensor, alloc_next]
          exact this
        | tensor v => rfl
        | plain s => rfl
      exact hk.later le_rfl (formatAll_next _ t) (fun x hx => formatAll_old _ t hx)
    · have := ih (formatTensor h a).1
      refine this.imp ?_
      rintro p q ⟨e, hk⟩
      refine ⟨e, hk.later ?_ le_rfl (fun x _ => rfl)⟩
      cases a <;> simp [formatTensor, alloc]

theorem foldl_max_le (l : List Nat) (a : Nat) : a ≤ l.foldl max a ∧ ∀ x ∈ l, x ≤ l.foldl max a := by
  induction l generalizing a with
  | nil => simp
  | cons b t ih =>
    obtain ⟨i1, i2⟩ := ih (max a b)
    simp only [List.foldl_cons, List.mem_cons, forall_eq_or_imp]
    exact ⟨by omega, by omega, i2⟩

theorem foldl_max_mem (l : List Nat) (a : Nat) : l.foldl max a = a ∨ l.foldl max a ∈ l := by
  induction l generalizing a with
  | nil => simp
  | cons b t ih =>
    simp only [List.foldl_cons, List.mem_cons]
    rcases ih (max a b) with h | h
    · rcases le_total a b with hab | hab
      · rw [max_eq_right hab] at h ⊢; exact Or.inr (Or.inl h)
      · rw [max_eq_left hab] at h ⊢; exact Or.inl h
    · exact Or.inr (Or.inr h)

/-- The batch size of an argument. -/
def argSize (a : Arg α) : Option Nat :=
  match a with
  | .value r => some r.length
  | .tensor v => some v.length
  | .plain _ => none

/-- Specification of the batch size: the largest one. -/
def IsMax (kw : List (String × Arg α)) (N : Nat) : Prop :=
  (∀ p ∈ kw, ∀ n, argSize p.2 = some n → n ≤ N) ∧ (N = 0 ∨ ∃ p ∈ kw, argSize p.2 = some N)

/-- What an attribute must be afterwards, in terms of the argument: the same number of rows for all, the only row repeated. -/
def Spread (N : Nat) (old new : List α) : Prop :=
  (old.length = N ∧ new = old) ∨ (old.length = 1 ∧ ∃ r, old = [r] ∧ new = List.replicate N r)

theorem forall₂_mapM {β γ ε : Type} {f : β → Except ε γ} {l : List β} {r : List γ} (h : l.mapM f = .ok r) :
    List.Forall₂ (fun a b => f a = .ok b) l r := by
  induction l generalizing r with
  | nil => simp [pure, Except.pure] at h; subst h; exact .nil
  | cons a t ih =>
    rw [List.mapM_cons] at h
    cases ha : f a with
    | error e => rw [ha] at h; cases h
    | ok b =>
      cases ht : t.mapM f with
      | error e => rw [ha, ht] at h; cases h
      | ok s =>
        rw [ha, ht] at h
        cases h
        exact .cons ha (ih ht)

theorem mapM_of_forall {β γ ε : Type} {f : β → Except ε γ} {l : List β} (h : ∀ a ∈ l, ∃ b, f a = .ok b) : ∃ r, l.mapM f = .ok r := by
  induction l with
  | nil => exact ⟨[], rfl⟩
  | cons a t ih =>
    obtain ⟨b, hb⟩ := h a (by simp)
    obtain ⟨r, hr⟩ := ih fun x hx => h x (by simp [hx])
    exact ⟨b :: r, by rw [List.mapM_cons, hb, hr]; rfl⟩

theorem mapM_error {β γ ε : Type} {f : β → Except ε γ} {l : List β} {e : ε} (h : l.mapM f = .error e) : ∃ a ∈ l, f a = .error e := by
  induction l with
  | nil => cases h
  | cons a t ih =>
    rw [List.mapM_cons] at h
    cases ha : f a with
    | error e' => rw [ha] at h; cases h; exact ⟨a, by simp, ha⟩
    | ok b =>
      cases ht : t.mapM f with
      | error e' =>
        rw [ha, ht] at h; cases h
        obtain ⟨x, hx, hx'⟩ := ih ht
        exact ⟨x, by simp [hx], hx'⟩
      | ok s => rw [ha, ht] at h; cases h

theorem kept_size {h h' : Heap α} {a : Arg α} {t : Attr} (hk : Kept h h' a t) :
    argSize a = attrSize t := by
  cases a <;> cases t <;> simp only [Kept] at hk <;> simp only [argSize, attrSize]
  · rw [← hk.1, rows_length]
  · rw [hk]

theorem sizes_spec {h h' : Heap α} {kw : List (String × Arg α)} {l : List (String × Attr)}
    (hf : List.Forall₂ (fun p q => q.1 = p.1 ∧ Kept h h' p.2 q.2) kw l) : sizes l = kw.filterMap fun p => argSize p.2 := by
  induction hf with
  | nil => rfl
  | cons hd _ ih =>
    rw [List.filterMap_cons, kept_size hd.2]
    unfold sizes at ih ⊢
    rw [List.filterMap_cons, ih]

theorem size_isMax (kw : List (String × Arg α)) : IsMax kw ((kw.filterMap fun p => argSize p.2).foldl max 0) := by
  constructor
  · intro p hp n hn
    exact (foldl_max_le _ 0).2 n (List.mem_filterMap.mpr ⟨p, hp, hn⟩)
  · rcases foldl_max_mem (kw.filterMap fun p => argSize p.2) 0 with h | h
    · exact Or.inl h
    · obtain ⟨p, hp, e⟩ := List.mem_filterMap.mp h
      exact Or.inr ⟨p, hp, e⟩

theorem isMax_unique {kw : List (String × Arg α)} {N M : Nat} (hN : IsMax kw N) (hM : IsMax kw M) : N = M := by
  obtain ⟨a1, a2⟩ := hN
  obtain ⟨b1, b2⟩ := hM
  have h1 : N ≤ M := by
    rcases a2 with h | ⟨p, hp, e⟩
    · omega
    · exact b1 p hp N e
  have h2 : M ≤ N := by
    rcases b2 with h | ⟨p, hp, e⟩
    · omega
    · exact a1 p hp M e
  omega

/-- How an argument ends up as an attribute: the rows, spread over the batch; separate memory exactly when nothing was repeated or shared. -/
def Final (h h' : Heap α) (N : Nat) (a : Arg α) (t : Attr) : Prop :=
  match a, t with
  | .value r, .tensor v => Spread N r (rows h' v) ∧ (∀ x ∈ v, h.next ≤ x ∧ x < h'.next) ∧
      ((r.length = N ∧ v.Nodup) ∨ (r.length ≠ N ∧ ∃ x, v = List.replicate N x))
  | .tensor u, .tensor v => Spread N (rows h u) (rows h' v) ∧ ((u.length = N ∧ v = u) ∨ (u.length ≠ N ∧ ∃ x, u = [x] ∧ v = List.replicate N x))
  | .plain s, .plain s' => s' = s
  | _, _ => False

theorem final_of_kept {h h' : Heap α} {N : Nat} {a : Arg α} {t t' : Attr} (hk : Kept h h' a t) (ha : ArgOk h a)
    (e : ∀ x < h.next, h'.row x = h.row x) (hb : broadcast N t = .ok t') : Final h h' N a t' := by
  cases a with
  | plain s =>
    cases t with
    | tensor v => exact hk.elim
    | plain s' => cases hb; exact hk
  | value r =>
    cases t with
    | plain s => exact hk.elim
    | tensor v =>
      simp only [broadcast] at hb
      obtain ⟨k1, k2, k3⟩ := hk
      have hl : v.length = r.length := by rw [← k1, rows_length]
      split_ifs at hb with h1 h2
      · cases hb
        exact ⟨Or.inl ⟨by omega, k1⟩, k3, Or.inl ⟨by omega, k2⟩⟩
      · cases hb
        have h3 : v.length = 1 := by omega
        obtain ⟨x, rfl⟩ := List.length_eq_one_iff.mp h3
        refine ⟨Or.inr ⟨by omega, h'.row x, ?_, ?_⟩, ?_, Or.inr ⟨by omega, x, rfl⟩⟩
        · rw [← k1]; rfl
        · simp [rows]
        · intro y hy
          rw [List.eq_of_mem_replicate hy]
          exact k3 x (by simp)
  | tensor u =>
    cases t with
    | plain s => exact hk.elim
    | tensor v =>
      simp only [Kept] at hk
      subst hk
      simp only [broadcast] at hb
      have hr : rows h' v = rows h v := rows_congr fun x hx => e x (ha x hx)
      split_ifs at hb with h1 h2
      · cases hb
        exact ⟨Or.inl ⟨by rw [rows_length]; exact h2, hr⟩, Or.inl ⟨h2, rfl⟩⟩
      · cases hb
        have h3 : v.length = 1 := by omega
        obtain ⟨x, rfl⟩ := List.length_eq_one_iff.mp h3
        refine ⟨Or.inr ⟨by simp [rows], h.row x, rfl, ?_⟩, Or.inr ⟨h2, x, rfl, rfl⟩⟩
        simp [rows, e x (ha x (by simp))]

/-- The constructor succeeds exactly if every tensor or list has the largest batch size or size one; then every attribute has that many
rows, an argument with one row being repeated, nothing that existed changes, and `len` is that size. -/
theorem init_spec (h : Heap α) (kw : List (String × Arg α)) (hok : ∀ p ∈ kw, ArgOk h p.2) {N : Nat} (hN : IsMax kw N) :
    ((∀ p ∈ kw, ∀ n, argSize p.2 = some n → n = 1 ∨ n = N) →
      ∃ h' attrs, init h kw = .ok (h', ⟨attrs, N⟩) ∧ h.next ≤ h'.next ∧ (∀ x < h.next, h'.row x = h.row x) ∧
        List.Forall₂ (fun p q => q.1 = p.1 ∧ Final h h' N p.2 q.2) kw attrs) ∧
    ((∃ p ∈ kw, ∃ n, argSize p.2 = some n ∧ n ≠ 1 ∧ n ≠ N) → init h kw = .error .value) := by
  have hf := formatAll_spec h kw
  have hs := sizes_spec hf
  have hN' : (sizes (formatAll h kw).2).foldl max 0 = N := by rw [hs]; exact isMax_unique (size_isMax kw) hN
  constructor
  · intro hsz
    have hb : ∀ q ∈ (formatAll h kw).2, ∃ b, broadcastOne N q = .ok b := by
      intro q hq
      obtain ⟨i, hi, rfl⟩ := List.mem_iff_getElem.mp hq
      rw [List.forall₂_iff_get] at hf
      have hi' : i < kw.length := by rw [hf.1]; exact hi
      have hk := (hf.2 i hi' hi).2
      have hsz' := hsz _ (List.getElem_mem hi')
      have hks := kept_size hk
      simp only [List.get_eq_getElem] at hks
      rw [hks] at hsz'
      generalize (formatAll h kw).2[i] = q at hsz' ⊢
      obtain ⟨k, v | s⟩ := q
      · have := hsz' v.length rfl
        refine ⟨(k, .tensor (if v.length = N then v else List.replicate N (v.headD 0))), ?_⟩
        simp only [broadcastOne, broadcast]
        rw [if_neg (by omega)]; rfl
      · exact ⟨(k, .plain s), rfl⟩
    obtain ⟨attrs, ha⟩ := mapM_of_forall hb
    refine ⟨(formatAll h kw).1, attrs, ?_, formatAll_next h kw, fun x hx => formatAll_old h kw hx, ?_⟩
    · simp only [init]
      rw [hN', ha]; rfl
    · have ha' := forall₂_mapM ha
      rw [List.forall₂_iff_get] at hf ha' ⊢
      refine ⟨by omega, fun i h1 h2 => ?_⟩
      have e1 := hf.2 i h1 (by omega)
      have e2 := ha'.2 i (by omega) h2
      simp only [broadcastOne] at e2
      cases hbr : broadcast N ((formatAll h kw).2.get ⟨i, by omega⟩).2 with
      | error e => rw [hbr] at e2; cases e2
      | ok b =>
        rw [hbr] at e2
        have e3 := Except.ok.inj e2
        rw [← e3]
        exact ⟨e1.1, final_of_kept e1.2 (hok _ (List.get_mem _ _)) (fun x hx => formatAll_old h kw hx) hbr⟩
  · rintro ⟨p, hp, n, hn, hn1, hnN⟩
    simp only [init]
    rw [hN']
    cases hm : (formatAll h kw).2.mapM (broadcastOne N) with
    | error e =>
      obtain ⟨q, hq, hq'⟩ := mapM_error hm
      obtain ⟨k, v | s⟩ := q
      · simp only [broadcastOne, broadcast] at hq'
        split_ifs at hq' with h1 h2
        · cases hq'; rfl
        · cases hq'
        · cases hq'
      · cases hq'
    | ok attrs =>
      exfalso
      have ha' := forall₂_mapM hm
      obtain ⟨i, hi, rfl⟩ := List.mem_iff_getElem.mp hp
      rw [List.forall₂_iff_get] at hf ha'
      have hk := kept_size (hf.2 i hi (by omega)).2
      have e2 := ha'.2 i (by omega) (by omega)
      simp only [List.get_eq_getElem] at hk e2
      rw [hn] at hk
      generalize (formatAll h kw).2[i]'(by omega) = q at hk e2
      obtain ⟨k, v | s⟩ := q
      · have hk' : n = v.length := Option.some.inj hk
        simp only [broadcastOne, broadcast] at e2
        rw [if_pos (by omega)] at e2
        cases e2
      · cases hk

/-! ### Reading and assigning through an index -/

theorem store_notin (m : Nat → α) (l : List (Nat × α)) {a : Nat} (ha : a ∉ l.map Prod.fst) : store m l a = m a := by
  induction l generalizing m with
  | nil => rfl
  | cons p t ih =>
    obtain ⟨b, x⟩ := p
    simp only [List.map_cons, List.mem_cons, not_or] at ha
    rw [store, ih _ ha.2, Function.update_of_ne ha.1]

theorem store_in (m : Nat → α) {t : List Nat} {new : List α} (hl : t.length = new.length) (hn : t.Nodup) {k : Nat} (hk : k < t.length) :
    store m (t.zip new) t[k] = new[k]'(by omega) := by
  induction t generalizing m new k with
  | nil => simp at hk
  | cons a t ih =>
    cases new with
    | nil => simp at hl
    | cons x new =>
      simp only [List.length_cons, Nat.add_right_cancel_iff] at hl
      rw [List.nodup_cons] at hn
      cases k with
      | zero =>
        simp only [List.zip_cons_cons, List.getElem_cons_zero, store]
        rw [store_notin]
        · simp
        · rw [List.map_fst_zip (by omega)]; exact hn.1
      | succ k =>
        simp only [List.zip_cons_cons, List.getElem_cons_succ, store]
        exact ih _ hl hn.2 (by simpa using hk)

/-- The position meant by an integer index. -/
def At (n : Nat) (i : Int) (k : Nat) : Prop := k < n ∧ ((i : Int) = k ∨ i = (k : Int) - n)

theorem positions_int {n : Nat} {i : Int} {k : Nat} (h : At n i k) : positions n (.int i) = .ok [k] := by
  obtain ⟨hk, h⟩ := h
  simp only [positions]
  rw [if_pos (by omega)]
  congr 2
  split <;> omega

/-- `obj[i].name` is the row of element `i`, negative indices counting from the end. -/
theorem getItem_int {h : Heap α} {p : Props} {name : String} {l : List α} (hr : read h p name = some l) {i : Int} {k : Nat}
    (hk : At l.length i k) : getItem h p (.int i) name = .ok [l[k]'hk.1] := by
  unfold read at hr
  unfold getItem
  split at hr
  · rename_i v hv
    cases hr
    rw [rows_length] at hk
    rw [hv]
    simp only [positions_int hk]
    have : v.getD k 0 = v[k]'hk.1 := List.getD_eq_getElem _ _ hk.1
    simp [bind, Except.bind, rows, hk.1]
  · cases hr

/-- The exact effect of `obj[i].name = r` for an integer index: all attributes, of any object, see `r` in every place which shares the
memory of that row, and nothing else changes. -/
theorem setItem_int {h : Heap α} {p : Props} {name : String} {v : View} (hv : attr p name = some (.tensor v)) {i : Int} {k : Nat}
    (hk : At v.length i k) (r : α) :
    ∃ h', setItem h p (.int i) name (.one r) = .ok h' ∧ h'.next = h.next ∧
      ∀ w : View, rows h' w = w.map fun a => if a = v[k]'hk.1 then r else h.row a := by
  unfold setItem
  rw [hv]
  simp only [positions_int hk, bind, Except.bind, Val.spread, List.map_cons, List.map_nil, List.length_cons, List.length_nil,
    List.nodup_cons, List.not_mem_nil, not_false_eq_true, List.nodup_nil, and_self, if_true]
  refine ⟨_, rfl, rfl, fun w => ?_⟩
  unfold rows
  refine List.map_congr_left fun a _ => ?_
  have e : v.getD k 0 = v[k]'hk.1 := List.getD_eq_getElem _ _ hk.1
  simp only [List.replicate_one, List.zip_cons_cons, List.zip_nil_left, store, e, Function.update_apply, Nat.zero_add]

/-- Assigning one element of an attribute whose rows are separate: that element is the new one and the others stay. -/
theorem set_separate {h : Heap α} {p : Props} {name : String} {v : View} (hv : attr p name = some (.tensor v)) (hn : v.Nodup) {i : Int}
    {k : Nat} (hk : At v.length i k) (r : α) :
    ∃ h', setItem h p (.int i) name (.one r) = .ok h' ∧ read h' p name = some ((rows h v).set k r) := by
  obtain ⟨h', e, _, hw⟩ := setItem_int hv hk r
  refine ⟨h', e, ?_⟩
  unfold read
  rw [hv]
  simp only [hw]
  congr 1
  apply List.ext_getElem
  · simp [rows]
  · intro j h1 h2
    simp only [List.length_map] at h1
    simp only [List.getElem_map, List.getElem_set, rows]
    by_cases hj : k = j
    · subst hj; simp
    · rw [if_neg hj, if_neg]
      intro e'
      exact hj (List.Nodup.getElem_inj_iff hn |>.mp e').symm

/-- Attributes without common memory do not see an assignment. -/
theorem set_other {h : Heap α} {p q : Props} {name name' : String} {v w : View} (hv : attr p name = some (.tensor v))
    (hw : attr q name' = some (.tensor w)) (hd : ∀ a ∈ v, a ∉ w) {i : Int} {k : Nat} (hk : At v.length i k) (r : α) :
    ∃ h', setItem h p (.int i) name (.one r) = .ok h' ∧ read h' q name' = read h q name' := by
  obtain ⟨h', e, _, hr⟩ := setItem_int hv hk r
  refine ⟨h', e, ?_⟩
  unfold read
  rw [hw]
  simp only [hr]
  congr 1
  refine List.map_congr_left fun a ha => ?_
  rw [if_neg]
  rintro rfl
  exact hd _ (List.getElem_mem _) ha

/-- An attribute which was given once and repeated by the constructor: assigning any one element assigns all of them. -/
theorem set_repeated {h : Heap α} {p : Props} {name : String} {N x : Nat} (hv : attr p name = some (.tensor (List.replicate N x)))
    {i : Int} {k : Nat} (hk : At N i k) (r : α) :
    ∃ h', setItem h p (.int i) name (.one r) = .ok h' ∧ read h' p name = some (List.replicate N r) := by
  obtain ⟨h', e, _, hr⟩ := setItem_int (h := h) hv (i := i) (k := k) (by simpa using hk) r
  refine ⟨h', e, ?_⟩
  unfold read
  rw [hv]
  simp [hr]

theorem bound_le {n d : Nat} (hd : d ≤ n) (o : Option Int) : bound n d o ≤ n := by
  cases o <;> simp [bound, hd]

/-- Slices select positions inside the tensor, in increasing order. -/
theorem slice_lt {n : Nat} {a b : Option Int} {s : Nat} {pos : List Nat} (hp : positions n (.slice a b s) = .ok pos) :
    (∀ i ∈ pos, i < n) ∧ pos.Pairwise (· < ·) := by
  simp only [positions] at hp
  split_ifs at hp with hs
  cases hp
  have hb := bound_le (le_refl n) b
  have hs' : 0 < s := by omega
  constructor
  · intro i hi
    obtain ⟨k, hk, rfl⟩ := List.mem_map.mp hi
    rw [List.mem_range] at hk
    generalize hq : bound n n b - bound n 0 a = d at hk
    have h1 : k * s < d := by
      have : (k + 1) * s ≤ (d + s - 1) / s * s := Nat.mul_le_mul_right _ hk
      have h2 := Nat.div_mul_le_self (d + s - 1) s
      have : (k + 1) * s = k * s + s := by ring
      omega
    omega
  · refine List.Pairwise.map _ (fun i j hij => ?_) List.pairwise_lt_range
    have := Nat.mul_lt_mul_of_pos_right hij hs'
    omega

/-- A slice of at least two elements of such an attribute cannot be assigned at all. -/
theorem set_repeated_slice {h : Heap α} {p : Props} {name : String} {N x : Nat} (hv : attr p name = some (.tensor (List.replicate N x)))
    {a b : Option Int} {s : Nat} {pos : List Nat} (hp : positions N (.slice a b s) = .ok pos) (h2 : 2 ≤ pos.length) (r : α) : setItem h p (.slice a b s) name (.one r) = .error .runtime := by
  have hlt := (slice_lt hp).1
  unfold setItem
  rw [hv]
  have hp' : positions (List.replicate N x).length (.slice a b s) = .ok pos := by simpa using hp
  simp only [hp', bind, Except.bind, Val.spread]
  rw [if_neg]
  match pos, h2 with
  | i :: j :: t, _ =>
    simp [hlt i (by simp), hlt j (by simp)]

theorem spread_length {x : Val α} {k : Nat} {new : List α} (hx : x.spread k = .ok new) : new.length = k := by
  unfold Val.spread at hx
  split at hx
  · cases hx; simp
  · cases hx; simp
  · split_ifs at hx with h
    cases hx; exact h

/-- Assigning a slice of an attribute with separate rows: the selected rows are replaced, the others stay. -/
theorem set_slice {h : Heap α} {p : Props} {name : String} {v : View} (hv : attr p name = some (.tensor v)) (hn : v.Nodup)
    {a b : Option Int} {s : Nat} {pos : List Nat} (hp : positions v.length (.slice a b s) = .ok pos) {x : Val α} {new : List α}
    (hx : x.spread pos.length = .ok new) :
    ∃ h', setItem h p (.slice a b s) name x = .ok h' ∧ getItem h' p (.slice a b s) name = .ok new ∧
      ∀ j (hj : j < v.length), j ∉ pos → h'.row v[j] = h.row v[j] := by
  have hl := spread_length hx
  obtain ⟨hlt, hpw⟩ := slice_lt hp
  have hnd : (pos.map fun i => v.getD i 0).Nodup := by
    refine List.Nodup.map_on (fun i hi j hj e => ?_) (hpw.imp (fun h => Nat.ne_of_lt h))
    rw [List.getD_eq_getElem _ _ (hlt i hi), List.getD_eq_getElem _ _ (hlt j hj)] at e
    exact (List.Nodup.getElem_inj_iff hn).mp e
  refine ⟨{ h with row := store h.row ((pos.map fun i => v.getD i 0).zip new) }, ?_, ?_, ?_⟩
  · unfold setItem
    rw [hv]
    simp only [hp, bind, Except.bind, List.length_map, hx]
    rw [if_pos hnd]
  · unfold getItem
    rw [hv]
    simp only [hp, bind, Except.bind]
    congr 1
    apply List.ext_getElem
    · simp [hl]
    · intro k h1 h2
      simp only [List.length_map] at h1
      have := store_in h.row (t := pos.map fun i => v.getD i 0) (new := new) (by simp [hl]) hnd (k := k) (by simpa using h1)
      rw [List.getElem_map] at this ⊢
      exact this
  · intro j hj hnot
    apply store_notin
    rw [List.map_fst_zip (by simp [hl])]
    intro hm
    obtain ⟨i, hi, e⟩ := List.mem_map.mp hm
    rw [List.getD_eq_getElem _ _ (hlt i hi)] at e
    exact hnot ((List.Nodup.getElem_inj_iff hn).mp e ▸ hi)

/-! ### `clone` -/

theorem cloneAttrs_next (h : Heap α) (l : List (String × Attr)) : h.next ≤ (cloneAttrs h l).1.next := by
  induction l generalizing h with
  | nil => simp [cloneAttrs]
  | cons p t ih =>
    obtain ⟨k, v | s⟩ := p
    · refine le_trans ?_ (ih (alloc h (rows h v)).1)
      rw [alloc_next]; omega
    · exact ih h

theorem cloneAttrs_old (h : Heap α) (l : List (String × Attr)) {a : Nat} (ha : a < h.next) : (cloneAttrs h l).1.row a = h.row a := by
  induction l generalizing h with
  | nil => rfl
  | cons p t ih =>
    obtain ⟨k, v | s⟩ := p
    · change (cloneAttrs (alloc h (rows h v)).1 t).1.row a = _
      rw [ih _ (by rw [alloc_next]; omega), alloc_old _ _ ha]
    · exact ih h ha

/-- The copy of an attribute: the same rows in new, separate memory. -/
def Copied (h h' : Heap α) : Attr → Attr → Prop
  | .tensor v, .tensor w => rows h' w = rows h v ∧ w.Nodup ∧ ∀ a ∈ w, h.next ≤ a ∧ a < h'.next
  | .plain s, .plain s' => s' = s
  | _, _ => False

/-- Every tensor of the object exists. -/
def Live (h : Heap α) (l : List (String × Attr)) : Prop := ∀ p ∈ l, ∀ v, p.2 = .tensor v → ∀ a ∈ v, a < h.next

/-- The memory of the tensors of the list is pairwise disjoint. -/
def Apart (l : List (String × Attr)) : Prop :=
  l.Pairwise fun p q => ∀ v w, p.2 = .tensor v → q.2 = .tensor w → ∀ a ∈ v, a ∉ w

theorem cloneAttrs_spec (h : Heap α) (l : List (String × Attr)) (hl : Live h l) :
    List.Forall₂ (fun p q => q.1 = p.1 ∧ Copied h (cloneAttrs h l).1 p.2 q.2) l (cloneAttrs h l).2 ∧ Apart (cloneAttrs h l).2 := by
  induction l generalizing h with
  | nil => simp [cloneAttrs, Apart]
  | cons p t ih =>
    obtain ⟨k, v | s⟩ := p
    · have hv : ∀ a ∈ v, a < h.next := hl (k, .tensor v) List.mem_cons_self v rfl
      have hn := alloc_next h (rows h v)
      have hlive : Live (alloc h (rows h v)).1 t := by
        intro p hp w hw a ha
        have := hl p (by simp [hp]) w hw a ha
        omega
      obtain ⟨i1, i2⟩ := ih (alloc h (rows h v)).1 hlive
      have hnew : ∀ q ∈ (cloneAttrs (alloc h (rows h v)).1 t).2, ∀ w, q.2 = .tensor w → ∀ a ∈ w, (alloc h (rows h v)).1.next ≤ a := by
        intro q hq w hw a ha
        obtain ⟨j, hj, rfl⟩ := List.mem_iff_getElem.mp hq
        rw [List.forall₂_iff_get] at i1
        have := (i1.2 j (by omega) hj).2
        simp only [List.get_eq_getElem] at this
        rw [hw] at this
        have hj' : j < t.length := by omega
        generalize t[j].2 = x at this
        cases x with
        | tensor u => exact (this.2.2 a ha).1
        | plain s => exact this.elim
      refine ⟨.cons ⟨rfl, ?_, alloc_nodup _ _, ?_⟩ ?_, ?_⟩
      · change rows (cloneAttrs (alloc h (rows h v)).1 t).1 (alloc h (rows h v)).2 = _
        rw [rows_congr (fun a ha => cloneAttrs_old _ t (by have := alloc_mem ha; omega)), alloc_rows]
      · intro a ha
        have := alloc_mem ha
        have h2 := cloneAttrs_next (alloc h (rows h v)).1 t
        change _ ∧ a < (cloneAttrs (alloc h (rows h v)).1 t).1.next
        omega
      · refine List.Forall₂.imp ?_ ((List.forall₂_and_left _ _).mpr ⟨fun p hp => hp, i1⟩)
        rintro p q ⟨hp, e, hc⟩
        refine ⟨e, ?_⟩
        obtain ⟨k1, u | s1⟩ := p <;> obtain ⟨k2, w | s2⟩ := q
        · obtain ⟨c1, c2, c3⟩ := hc
          refine ⟨?_, c2, fun a ha => ?_⟩
          · change rows (cloneAttrs (alloc h (rows h v)).1 t).1 w = _
            rw [c1]
            exact rows_congr fun a ha => alloc_old _ _ (hl (k1, .tensor u) (by simp [hp]) u rfl a ha)
          · have h3 := c3 a ha
            change _ ∧ a < (cloneAttrs (alloc h (rows h v)).1 t).1.next
            omega
        · exact hc
        · exact hc
        · exact hc
      · refine List.Pairwise.cons ?_ i2
        intro q hq v' w hv' hw a ha ha'
        cases hv'
        have h1 := alloc_mem ha
        have h2 := hnew q hq w hw a ha'
        omega
    · obtain ⟨i1, i2⟩ := ih h (fun p hp => hl p (by simp [hp]))
      refine ⟨.cons ⟨rfl, rfl⟩ i1, List.Pairwise.cons ?_ i2⟩
      intro q _ v w hv
      cases hv

theorem lookup_forall₂ {β γ : Type} {R : String × β → String × γ → Prop} {l : List (String × β)} {m : List (String × γ)}
    (hf : List.Forall₂ R l m) (hR : ∀ p q, R p q → q.1 = p.1) {name : String} {x : β} (hx : l.lookup name = some x) :
    ∃ y, m.lookup name = some y ∧ R (name, x) (name, y) := by
  induction hf with
  | nil => simp at hx
  | cons hd tl ih =>
    rename_i p q _ _
    obtain ⟨k, b⟩ := p
    obtain ⟨k', c⟩ := q
    have e := hR _ _ hd
    simp only at e
    subst e
    by_cases hk : name = k'
    · subst hk
      simp only [List.lookup_cons, beq_self_eq_true, Option.some.injEq] at hx
      subst hx
      exact ⟨c, by simp, hd⟩
    · have hb : (name == k') = false := by simpa using hk
      simp only [List.lookup_cons, hb] at hx ⊢
      exact ih hx

/-- The clone has the same length and the same attributes, and nothing that existed changes. -/
theorem clone_spec {h : Heap α} {p : Props} (hl : Live h p.attrs) {name : String} {v : View} (hv : attr p name = some (.tensor v)) :
    (clone h p).2.n = p.n ∧ (∀ a < h.next, (clone h p).1.row a = h.row a) ∧
    read (clone h p).1 (clone h p).2 name = read h p name ∧
    ∃ w, attr (clone h p).2 name = some (.tensor w) ∧ w.Nodup ∧ w.length = v.length ∧ ∀ a ∈ w, h.next ≤ a := by
  obtain ⟨hf, _⟩ := cloneAttrs_spec h p.attrs hl
  obtain ⟨y, hy, hR⟩ := lookup_forall₂ hf (fun _ _ h => h.1) hv
  refine ⟨rfl, fun a ha => cloneAttrs_old h _ ha, ?_⟩
  have hy' : attr (clone h p).2 name = some y := hy
  cases y with
  | plain s => exact hR.2.elim
  | tensor w =>
    obtain ⟨_, c1, c2, c3⟩ := hR
    refine ⟨?_, w, hy', c2, ?_, fun a ha => (c3 a ha).1⟩
    · unfold read
      rw [hv, hy']
      simp only [Option.some.injEq]
      exact c1
    · have := congrArg List.length c1
      rwa [rows_length, rows_length] at this

/-- After `clone`, assigning one element of the clone changes that element of the clone only: even an attribute which was repeated can be
assigned element by element, and the original does not change. -/
theorem clone_set {h : Heap α} {p : Props} (hl : Live h p.attrs) {name : String} {l : List α} (hr : read h p name = some l) {i : Int}
    {k : Nat} (hk : At l.length i k) (r : α) :
    ∃ h', setItem (clone h p).1 (clone h p).2 (.int i) name (.one r) = .ok h' ∧ read h' (clone h p).2 name = some (l.set k r) ∧
      ∀ name', read h' p name' = read h p name' := by
  unfold read at hr
  split at hr
  · rename_i v hv
    cases hr
    obtain ⟨_, hold, hrd, w, hw, hn, hwl, hge⟩ := clone_spec hl hv
    have hk' : At w.length i k := by rw [hwl]; rwa [rows_length] at hk
    obtain ⟨h', e, hr'⟩ := set_separate (h := (clone h p).1) hw hn hk' r
    refine ⟨h', e, ?_, ?_⟩
    · rw [hr']
      have : rows (clone h p).1 w = rows h v := by
        unfold read at hrd
        rw [hv, hw] at hrd
        simpa using hrd
      rw [this]
    · intro name'
      obtain ⟨h'', e', _, hrows⟩ := setItem_int (h := (clone h p).1) hw hk' r
      rw [e] at e'
      cases e'
      unfold read
      cases ha : attr p name' with
      | none => rfl
      | some x =>
        cases x with
        | plain s => rfl
        | tensor u =>
          simp only [hrows]
          congr 1
          refine List.map_congr_left fun a hau => ?_
          have : a < h.next := hl (name', .tensor u) (by
            have := List.lookup_eq_some_iff.mp ha
            obtain ⟨l1, l2, e, _⟩ := this
            rw [e]; simp) u rfl a hau
          rw [if_neg, hold a this]
          intro e
          have := hge _ (List.getElem_mem hk'.1)
          omega
  · cases hr

/-! ### `gather_props` -/

theorem gatherAttrs_spec {h : Heap α} {idx : List Nat} {l : List (String × Attr)} (hl : Live h l)
    (hi : ∀ p ∈ l, ∀ v : View, p.2 = .tensor v → 1 < v.length → ∀ i ∈ idx, i < v.length) :
    ∃ h' l', gatherAttrs h idx l = .ok (h', l') ∧ h.next ≤ h'.next ∧ (∀ a < h.next, h'.row a = h.row a) ∧
      List.Forall₂ (fun p q => q.1 = p.1 ∧ match p.2, q.2 with
        | .tensor v, .tensor w => if 1 < v.length then rows h' w = idx.map (fun i => h.row (v.getD i 0)) else w = v
        | .plain s, .plain s' => s' = s
        | _, _ => False) l l' := by
  induction l generalizing h with
  | nil => exact ⟨h, [], rfl, le_rfl, fun _ _ => rfl, .nil⟩
  | cons p t ih =>
    obtain ⟨k, v | s⟩ := p
    · by_cases hv : 1 < v.length
      · have hiv := hi _ (List.mem_cons_self) v rfl hv
        have hn := alloc_next h (idx.map fun i => h.row (v.getD i 0))
        obtain ⟨h', l', e, h1, h2, h3⟩ := ih (h := (alloc h (idx.map fun i => h.row (v.getD i 0))).1)
          (fun p hp w hw a ha => by have := hl p (by simp [hp]) w hw a ha; omega) (fun p hp => hi p (by simp [hp]))
        refine ⟨h', (k, .tensor (alloc h (idx.map fun i => h.row (v.getD i 0))).2) :: l', ?_, by omega, fun a ha => ?_, ?_⟩
        · simp only [gatherAttrs]
          rw [if_pos hv, if_pos hiv, e]; rfl
        · rw [h2 a (by omega), alloc_old _ _ ha]
        · refine .cons ⟨rfl, ?_⟩ ?_
          · simp only
            rw [if_pos hv, rows_congr (fun a ha => h2 a (by have := alloc_mem ha; omega)), alloc_rows]
          · refine List.Forall₂.imp ?_ ((List.forall₂_and_left _ _).mpr ⟨fun p hp => hp, h3⟩)
            rintro p q ⟨hp, e1, hc⟩
            refine ⟨e1, ?_⟩
            obtain ⟨k1, u | s1⟩ := p <;> obtain ⟨k2, w | s2⟩ := q
            · simp only at hc ⊢
              split_ifs at hc ⊢ with hu
              · rw [hc]
                refine List.map_congr_left fun i hii => alloc_old _ _ ?_
                have hiu := hi (k1, .tensor u) (by simp [hp]) u rfl hu i hii
                rw [List.getD_eq_getElem _ _ hiu]
                exact hl (k1, .tensor u) (by simp [hp]) u rfl _ (List.getElem_mem _)
              · exact hc
            · exact hc
            · exact hc
            · exact hc
      · obtain ⟨h', l', e, h1, h2, h3⟩ := ih (h := h) (fun p hp => hl p (by simp [hp])) (fun p hp => hi p (by simp [hp]))
        refine ⟨h', (k, .tensor v) :: l', ?_, h1, h2, .cons ⟨rfl, ?_⟩ h3⟩
        · simp only [gatherAttrs]
          rw [if_neg hv, e]; rfl
        · simp only [hv, if_false]
    · obtain ⟨h', l', e, h1, h2, h3⟩ := ih (h := h) (fun p hp => hl p (by simp [hp])) (fun p hp => hi p (by simp [hp]))
      refine ⟨h', (k, .plain s) :: l', ?_, h1, h2, .cons ⟨rfl, rfl⟩ h3⟩
      simp only [gatherAttrs]
      rw [e]; rfl

/-- `gather_props`: an attribute with several rows becomes the list of the rows that the indices name, an attribute with a single row stays,
and `len` is what it was before. -/
theorem gather_spec {h : Heap α} {p : Props} (hl : Live h p.attrs) {idx : List Nat}
    (hi : ∀ q ∈ p.attrs, ∀ v : View, q.2 = .tensor v → 1 < v.length → ∀ i ∈ idx, i < v.length) :
    ∃ h' p', gatherProps h p idx = .ok (h', p') ∧ p'.n = p.n ∧
      ∀ name l, read h p name = some l →
        (1 < l.length → ∃ l', read h' p' name = some l' ∧ l'.length = idx.length ∧
          ∀ b (hb : b < idx.length), l'[b]? = l[idx[b]]?) ∧
        (l.length ≤ 1 → read h' p' name = some l) := by
  obtain ⟨h', l', e, hn, hold, hf⟩ := gatherAttrs_spec hl hi
  refine ⟨h', ⟨l', p.n⟩, by simp only [gatherProps]; rw [e]; rfl, rfl, ?_⟩
  intro name l hr
  unfold read at hr
  split at hr
  · rename_i v hv
    cases hr
    obtain ⟨y, hy, hR⟩ := lookup_forall₂ hf (fun _ _ h => h.1) hv
    have hy' : attr (⟨l', p.n⟩ : Props) name = some y := hy
    have hmem : (name, Attr.tensor v) ∈ p.attrs := by
      obtain ⟨l1, l2, e, _⟩ := List.lookup_eq_some_iff.mp hv
      rw [e]; simp
    cases y with
    | plain s => exact hR.2.elim
    | tensor w =>
      have hc := hR.2
      simp only at hc
      rw [rows_length]
      constructor
      · intro h1
        rw [if_pos h1] at hc
        refine ⟨rows h' w, ?_, ?_, fun b hb => ?_⟩
        · unfold read; rw [hy']
        · rw [hc]; simp
        · have hib := hi _ hmem v rfl h1 _ (List.getElem_mem hb)
          rw [hc]
          simp [rows, hb, hib]
      · intro h1
        rw [if_neg (by omega)] at hc
        subst hc
        unfold read
        rw [hy']
        simp only [Option.some.injEq]
        exact rows_congr fun a ha => hold a (hl _ hmem w rfl a ha)
  · cases hr

/-- An index which is too large for an attribute with several rows is an error. -/
theorem gather_error {h : Heap α} {p : Props} {idx : List Nat} {name : String} {v : View} (hm : (name, Attr.tensor v) ∈ p.attrs)
    (h1 : 1 < v.length) {i : Nat} (hi : i ∈ idx) (hiv : v.length ≤ i) : gatherProps h p idx = .error .runtime := by
  have key : ∀ (l : List (String × Attr)) (h : Heap α), (name, Attr.tensor v) ∈ l → gatherAttrs h idx l = .error .runtime := by
    intro l
    induction l with
    | nil => simp
    | cons q t ih =>
      intro h hq
      rcases List.mem_cons.mp hq with rfl | hq'
      · simp only [gatherAttrs]
        rw [if_pos h1, if_neg]
        exact fun hall => absurd (hall i hi) (by omega)
      · obtain ⟨k, u | s⟩ := q
        · simp only [gatherAttrs]
          split_ifs
          · rw [ih _ hq']; rfl
          · rfl
          · rw [ih _ hq']; rfl
        · simp only [gatherAttrs]
          rw [ih _ hq']; rfl
  simp only [gatherProps]
  rw [key _ h hm]; rfl

/-! ### Assigning to a new object -/

theorem init_attr {h h' : Heap α} {kw : List (String × Arg α)} {p : Props} {N : Nat} (hok : ∀ q ∈ kw, ArgOk h q.2) (hN : IsMax kw N)
    (he : init h kw = .ok (h', p)) {name : String} {a : Arg α} (ha : kw.lookup name = some a) :
    p.n = N ∧ ∃ t, attr p name = some t ∧ Final h h' N a t := by
  obtain ⟨i1, i2⟩ := init_spec h kw hok hN
  by_cases hs : ∀ q ∈ kw, ∀ n, argSize q.2 = some n → n = 1 ∨ n = N
  · obtain ⟨h1, attrs, e, _, _, hf⟩ := i1 hs
    rw [he] at e
    cases e
    obtain ⟨y, hy, hR⟩ := lookup_forall₂ hf (fun _ _ h => h.1) ha
    exact ⟨rfl, y, hy, hR.2⟩
  · push Not at hs
    obtain ⟨q, hq, n, hn, h1, h2⟩ := hs
    rw [i2 ⟨q, hq, n, hn, h1, h2⟩] at he
    cases he

/-- A new object, an attribute given as a list with a row for each element: `obj[i].name = r` changes element `i` of that attribute and
nothing else of it. -/
theorem new_set_list {h h' : Heap α} {kw : List (String × Arg α)} {p : Props} {N : Nat} (hok : ∀ q ∈ kw, ArgOk h q.2) (hN : IsMax kw N)
    (he : init h kw = .ok (h', p)) {name : String} {l : List α} (ha : kw.lookup name = some (.value l)) (hl : l.length = N) {i : Int}
    {k : Nat} (hk : At N i k) (r : α) :
    ∃ h'', setItem h' p (.int i) name (.one r) = .ok h'' ∧ read h'' p name = some (l.set k r) := by
  obtain ⟨_, t, ht, hF⟩ := init_attr hok hN he ha
  cases t with
  | plain s => exact hF.elim
  | tensor v =>
    obtain ⟨f1, f2, f3⟩ := hF
    have hrows : rows h' v = l := by
      rcases f1 with ⟨_, h⟩ | ⟨h1, x, rfl, h⟩
      · exact h
      · rw [h, ← hl]; rfl
    have hvl : v.length = N := by rw [← rows_length h', hrows, hl]
    have hn : v.Nodup := by
      rcases f3 with ⟨_, h⟩ | ⟨h, _⟩
      · exact h
      · exact absurd hl h
    obtain ⟨h'', e, hr⟩ := set_separate ht hn (by rw [hvl]; exact hk) r
    exact ⟨h'', e, by rw [hr, hrows]⟩

/-- A new object, an attribute given with a single row among others with several: assigning one element assigns all of them. -/
theorem new_set_repeated {h h' : Heap α} {kw : List (String × Arg α)} {p : Props} {N : Nat} (hok : ∀ q ∈ kw, ArgOk h q.2)
    (hN : IsMax kw N) (hN1 : N ≠ 1) (he : init h kw = .ok (h', p)) {name : String} {a : Arg α} (ha : kw.lookup name = some a)
    (hs : argSize a = some 1) {i : Int} {k : Nat} (hk : At N i k) (r : α) :
    ∃ h'', setItem h' p (.int i) name (.one r) = .ok h'' ∧ read h'' p name = some (List.replicate N r) := by
  obtain ⟨_, t, ht, hF⟩ := init_attr hok hN he ha
  cases a with
  | plain s => cases hs
  | value l =>
    have hl : l.length = 1 := Option.some.inj hs
    cases t with
    | plain s => exact hF.elim
    | tensor v =>
      obtain ⟨_, _, ⟨h1, _⟩ | ⟨_, x, rfl⟩⟩ := hF
      · omega
      · exact set_repeated ht hk r
  | tensor u =>
    have hl : u.length = 1 := Option.some.inj hs
    cases t with
    | plain s => exact hF.elim
    | tensor v =>
      obtain ⟨_, ⟨h1, _⟩ | ⟨_, x, _, rfl⟩⟩ := hF
      · omega
      · exact set_repeated ht hk r

/-- A new object, an attribute given as a tensor with a row for each element: the tensor of the caller is the one which is assigned. -/
theorem new_set_tensor {h h' : Heap α} {kw : List (String × Arg α)} {p : Props} {N : Nat} (hok : ∀ q ∈ kw, ArgOk h q.2) (hN : IsMax kw N)
    (he : init h kw = .ok (h', p)) {name : String} {u : View} (ha : kw.lookup name = some (.tensor u)) (hl : u.length = N) {i : Int}
    {k : Nat} (hk : At N i k) (r : α) :
    ∃ h'', setItem h' p (.int i) name (.one r) = .ok h'' ∧ rows h'' u = u.map (fun a => if a = u.getD k 0 then r else h'.row a) ∧
      (rows h'' u)[k]? = some r ∧ read h'' p name = some (rows h'' u) := by
  obtain ⟨_, t, ht, hF⟩ := init_attr hok hN he ha
  cases t with
  | plain s => exact hF.elim
  | tensor v =>
    obtain ⟨_, ⟨_, rfl⟩ | ⟨h1, _⟩⟩ := hF
    · obtain ⟨h'', e, _, hw⟩ := setItem_int (h := h') ht (i := i) (k := k) (by rw [hl]; exact hk) r
      have hkl : k < v.length := by rw [hl]; exact hk.1
      refine ⟨h'', e, ?_, ?_, ?_⟩
      · rw [hw, List.getD_eq_getElem _ _ hkl]
      · rw [hw]; simp [hkl]
      · unfold read; rw [ht]
    · exact absurd hl h1

/-! ### Examples -/

/-- The memory of the examples: one tensor of two rows at the addresses 0 and 1. -/
def exHeap : Heap Nat := ⟨2, fun a => 10 + a⟩

/-- `PointLights(location=loc, ambient_color=((0.5, 0.5, 0.5),))` where `loc` has two rows. -/
def exKw : List (String × Arg Nat) := [("location", .tensor [0, 1]), ("ambient_color", .value [5]), ("mode", .plain "x")]

def exObj : Heap Nat × Props := (⟨3, fun a => if a < 2 then 10 + a else if a = 2 then 5 else 10 + a⟩,
  ⟨[("location", .tensor [0, 1]), ("ambient_color", .tensor [2, 2]), ("mode", .plain "x")], 2⟩)

def outcome (x : Except Err (Heap Nat)) (p : Props) (names : List String) : Except Err (List (Option (List Nat))) :=
  x.map fun h => names.map (read h p)

-- a list of two rows, one row, a plain attribute: two elements
example : (init exHeap exKw).map (fun x => (x.2, read x.1 x.2 "ambient_color", read x.1 x.2 "location")) =
    .ok (exObj.2, some [5, 5], some [10, 11]) := by decide +kernel
example : (init exHeap [("x", .tensor [0, 1]), ("y", .value [1, 2, 3])]).map (fun x => x.2) = .error .value := by decide +kernel
-- `lights[0].ambient_color = 7` changes both elements; `lights[1].location = 7` changes one, and the tensor of the caller
example : outcome (setItem exObj.1 exObj.2 (.int 0) "ambient_color" (.one 7)) exObj.2 ["ambient_color", "location"] =
    .ok [some [7, 7], some [10, 11]] := by decide +kernel
example : (setItem exObj.1 exObj.2 (.int (-1)) "location" (.one 7)).map (fun h => (read h exObj.2 "location", h.row 1)) =
    .ok (some [10, 7], 7) := by decide +kernel
example : outcome (setItem exObj.1 exObj.2 (.slice none none 1) "ambient_color" (.one 7)) exObj.2 [] = .error .runtime := by decide +kernel
example : outcome (setItem exObj.1 exObj.2 (.slice (some 0) none 1) "location" (.batch [7, 8])) exObj.2 ["location"] =
    .ok [some [7, 8]] := by decide +kernel
-- after `clone`
example : outcome (setItem (clone exObj.1 exObj.2).1 (clone exObj.1 exObj.2).2 (.int 0) "ambient_color" (.one 7))
    (clone exObj.1 exObj.2).2 ["ambient_color", "location"] = .ok [some [7, 5], some [10, 11]] := by decide +kernel
-- `gather_props`
example : (gatherProps exObj.1 exObj.2 [1, 0, 1]).map (fun x => (x.2.n, read x.1 x.2 "location", read x.1 x.2 "ambient_color")) =
    .ok (2, some [11, 10, 11], some [5, 5, 5]) := by decide +kernel
-- the hypotheses of the theorems
example : IsMax exKw 2 ∧ (∀ p ∈ exKw, ArgOk exHeap p.2) ∧ At 2 (-1) 1 ∧ Live exObj.1 exObj.2.attrs := by
  refine ⟨⟨?_, Or.inr ⟨("location", .tensor [0, 1]), by simp [exKw], rfl⟩⟩, ?_, by simp [At], ?_⟩
  · intro p hp n hn
    simp only [exKw, List.mem_cons, List.not_mem_nil, or_false] at hp
    rcases hp with rfl | rfl | rfl <;> simp [argSize] at hn <;> omega
  · intro p hp
    simp only [exKw, List.mem_cons, List.not_mem_nil, or_false] at hp
    rcases hp with rfl | rfl | rfl <;> simp [ArgOk, exHeap]
  · intro p hp v hv a ha
    simp only [exObj, List.mem_cons, List.not_mem_nil, or_false] at hp
    rcases hp with rfl | rfl | rfl <;> cases hv <;> simp [exObj] at ha ⊢ <;> omega

end P3D.TProps
