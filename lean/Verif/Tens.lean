/-
Tensors with shapes: what the code relies on of PyTorch's broadcasting, `expand`, `view`, indexing by `None`, and reductions of the last
dimension.  A tensor is a shape and a function of index lists; values at indices outside the shape have no meaning.

The main tool is `Reads t s f`: broadcast to the shape `s`, the tensor `t` has the value `f ix` at the index `ix`.
-/
import Mathlib.Data.List.Forall2
import Mathlib.Data.List.GetD
import Mathlib.Algebra.BigOperators.Group.List.Basic
import Mathlib.Tactic.Ring

set_option linter.unusedSectionVars false

namespace P3D.Tens

inductive Err
  | value | runtime | index
  deriving DecidableEq, Repr

structure Ten (α : Type) where
  shape : List Nat
  get : List Nat → α

variable {α β γ : Type}

/-! ### Broadcasting -/

/-- The size of a dimension of two tensors broadcast against each other. -/
def bdim (a b : Nat) : Option Nat := if a = b then some a else if a = 1 then some b else if b = 1 then some a else none

/-- Shapes, the last dimension first. -/
def brev : List Nat → List Nat → Option (List Nat)
  | [], t => some t
  | s, [] => some s
  | a :: s, b :: t => match bdim a b, brev s t with
    | some d, some r => some (d :: r)
    | _, _ => none

/-- The shape of the result of an operation on two tensors; `none` if they do not fit. -/
def bshape (s t : List Nat) : Option (List Nat) := (brev s.reverse t.reverse).map List.reverse

/-- Reversed indices. -/
def irev : List Nat → List Nat → List Nat
  | d :: s, i :: ix => (if d = 1 then 0 else i) :: irev s ix
  | _, _ => []

/-- The index read in a tensor of shape `s` when the result has index `ix`. -/
def bidx (s ix : List Nat) : List Nat := (irev s.reverse ix.reverse).reverse

/-- An operation on two tensors, entry by entry. -/
def map2 (f : α → β → γ) (a : Ten α) (b : Ten β) : Except Err (Ten γ) :=
  match bshape a.shape b.shape with
  | some s => .ok ⟨s, fun ix => f (a.get (bidx a.shape ix)) (b.get (bidx b.shape ix))⟩
  | none => .error .runtime

def map1 (f : α → β) (a : Ten α) : Ten β := ⟨a.shape, fun ix => f (a.get ix)⟩

/-- `t[..., None]`. -/
def unsq (t : Ten α) : Ten α := ⟨t.shape ++ [1], fun ix => t.get ix.dropLast⟩

/-- `torch.sum(t, dim=-1)`. -/
def sumLast [AddMonoid α] (t : Ten α) : Ten α :=
  ⟨t.shape.dropLast, fun ix => ((List.range (t.shape.getLastD 0)).map fun c => t.get (ix ++ [c])).sum⟩

/-- Rows of the last dimension replaced, as by `F.normalize(t, dim=-1)`: `f` gets the row as a function and the position in it. -/
def mapRow (f : Nat → (Nat → α) → Nat → β) (t : Ten α) : Ten β :=
  ⟨t.shape, fun ix => f (t.shape.getLastD 0) (fun c => t.get (ix.dropLast ++ [c])) (ix.getLastD 0)⟩

/-- `t.expand(N, -1, …)`. -/
def expand0 (N : Nat) (t : Ten α) : Ten α :=
  match t.shape with
  | [] => t
  | d :: s => ⟨N :: s, fun ix => match ix with
    | [] => t.get []
    | i :: r => t.get ((if d = 1 then 0 else i) :: r)⟩

/-- Position in memory of an index. -/
def flat : List Nat → List Nat → Nat
  | d :: s, i :: ix => (if d = 0 then 0 else i) * s.prod + flat s ix
  | _, _ => 0

/-- Index of a position in memory. -/
def unflat : List Nat → Nat → List Nat
  | [], _ => []
  | _ :: s, p => p / s.prod :: unflat s (p % s.prod)

/-- `t.view(-1, *rest)`. -/
def viewB (rest : List Nat) (t : Ten α) : Except Err (Ten α) :=
  if rest.prod = 0 ∨ t.shape.prod % rest.prod ≠ 0 then .error .runtime
  else
    let s := t.shape.prod / rest.prod :: rest
    .ok ⟨s, fun ix => t.get (unflat t.shape (flat s ix))⟩

/-- `t[:, None, …, None, :]` with `k` new dimensions. -/
def mid (k : Nat) (t : Ten α) : Ten α :=
  ⟨t.shape.take 1 ++ List.replicate k 1 ++ t.shape.drop 1, fun ix => t.get (ix.take 1 ++ ix.drop (1 + k))⟩

/-- Whether dimensions are kept by `squeeze()`, and the index with zeros put back. -/
def unsqueezeIdx : List Nat → List Nat → List Nat
  | [], _ => []
  | d :: s, ix => if d = 1 then 0 :: unsqueezeIdx s ix
    else match ix with
      | [] => 0 :: unsqueezeIdx s []
      | i :: r => i :: unsqueezeIdx s r

/-- `t.squeeze()`. -/
def squeeze (t : Ten α) : Ten α := ⟨t.shape.filter (· ≠ 1), fun ix => t.get (unsqueezeIdx t.shape ix)⟩

/-! ### Indices in range -/

/-- `ix` is an index of a tensor of shape `s`. -/
def InR (s ix : List Nat) : Prop := List.Forall₂ (fun i d => i < d) ix s

theorem InR.length {s ix : List Nat} (h : InR s ix) : ix.length = s.length := List.Forall₂.length_eq h

theorem inR_append {s t ix jx : List Nat} (h : InR s ix) (h' : InR t jx) : InR (s ++ t) (ix ++ jx) := by
  unfold InR at *
  exact List.rel_append h h'

theorem inR_snoc {s : List Nat} {d : Nat} {ix : List Nat} (h : InR (s ++ [d]) ix) : ∃ jx c, ix = jx ++ [c] ∧ InR s jx ∧ c < d := by
  rcases List.eq_nil_or_concat ix with rfl | ⟨jx, c, e⟩
  · have := h.length; simp at this
  · rw [List.concat_eq_append] at e
    subst e
    refine ⟨jx, c, rfl, ?_⟩
    have hl : jx.length = s.length := by have := h.length; simpa using this
    unfold InR at *
    rw [List.forall₂_iff_get] at h ⊢
    refine ⟨⟨hl, fun i h1 h2 => ?_⟩, ?_⟩
    · have := h.2 i (by simp; omega) (by simp; omega)
      simpa [h1, h2] using this
    · have := h.2 jx.length (by simp) (by simp; omega)
      simpa [hl] using this

theorem inR_cons {s : List Nat} {d : Nat} {ix : List Nat} (h : InR (d :: s) ix) : ∃ i jx, ix = i :: jx ∧ InR s jx ∧ i < d := by
  unfold InR at h
  cases h with
  | cons h1 h2 => exact ⟨_, _, rfl, h2, h1⟩

theorem inR_reverse {s ix : List Nat} (h : InR s ix) : InR s.reverse ix.reverse := by
  unfold InR at *
  exact List.rel_reverse h

/-! ### Reversed shapes -/

/-- `a` can be broadcast to `s` (reversed). -/
inductive FitR : List Nat → List Nat → Prop
  | nil (s : List Nat) : FitR [] s
  | cons {d e : Nat} {a s : List Nat} : (d = 1 ∨ d = e) → FitR a s → FitR (d :: a) (e :: s)

theorem fitR_refl (s : List Nat) : FitR s s := by
  induction s with
  | nil => exact .nil _
  | cons d s ih => exact .cons (Or.inr rfl) ih

theorem bdim_one (a : Nat) : bdim a 1 = some a := by
  unfold bdim
  split_ifs <;> first | rfl | simp_all

theorem one_bdim (a : Nat) : bdim 1 a = some a := by
  unfold bdim
  split_ifs <;> first | rfl | simp_all

theorem bdim_self (a : Nat) : bdim a a = some a := by simp [bdim]

/-- Two shapes which can be broadcast to `s` fit each other, the result can be broadcast to `s`, and indices compose. -/
theorem brev_fit {a b s : List Nat} (ha : FitR a s) (hb : FitR b s) :
    ∃ r, brev a b = some r ∧ FitR r s ∧ (a = s ∨ b = s → r = s) ∧
      ∀ ix, InR s ix → irev a (irev r ix) = irev a ix ∧ irev b (irev r ix) = irev b ix := by
  induction s generalizing a b with
  | nil =>
    cases ha; cases hb
    exact ⟨[], rfl, .nil _, fun _ => rfl, fun ix _ => ⟨rfl, rfl⟩⟩
  | cons e s ih =>
    cases ha with
    | nil =>
      refine ⟨b, by simp [brev], hb, ?_, fun ix hix => ⟨by simp [irev], ?_⟩⟩
      · rintro (h | h)
        · cases h
        · exact h
      · clear ih
        induction b generalizing ix with
        | nil => simp [irev]
        | cons d b ihb =>
          cases ix with
          | nil => simp [irev]
          | cons i ix =>
            simp only [irev]
            have : ∀ (b ix : List Nat), irev b (irev b ix) = irev b ix := by
              intro b
              induction b with
              | nil => intro ix; simp [irev]
              | cons d b ih =>
                intro ix
                cases ix with
                | nil => simp [irev]
                | cons i ix => simp only [irev, ih]; split_ifs <;> rfl
            rw [this]; split_ifs <;> rfl
    | cons h1 ha =>
      rename_i d a
      cases hb with
      | nil =>
        refine ⟨d :: a, by simp [brev], .cons h1 ha, ?_, fun ix hix => ⟨?_, by simp [irev]⟩⟩
        · rintro (h | h)
          · exact h
          · cases h
        · have : ∀ (b ix : List Nat), irev b (irev b ix) = irev b ix := by
            intro b
            induction b with
            | nil => intro ix; simp [irev]
            | cons d b ih =>
              intro ix
              cases ix with
              | nil => simp [irev]
              | cons i ix => simp only [irev, ih]; split_ifs <;> rfl
          exact this _ _
      | cons h2 hb =>
        rename_i d' b
        obtain ⟨r, hr, hf, hfull, hi⟩ := ih ha hb
        have hd : ∃ x, bdim d d' = some x ∧ (x = 1 ∨ x = e) ∧ (d ≠ 1 → x = d) ∧ (d' ≠ 1 → x = d') ∧ (d = e ∨ d' = e → x = e) := by
          rcases h1 with rfl | rfl
          · exact ⟨d', one_bdim _, h2, fun h => absurd rfl h, fun _ => rfl, by rintro (rfl | h) <;> [skip; exact h]; rcases h2 with h | h <;> exact h⟩
          · rcases h2 with rfl | rfl
            · exact ⟨d, bdim_one _, Or.inr rfl, fun _ => rfl, fun h => absurd rfl h, fun _ => rfl⟩
            · exact ⟨d', bdim_self _, Or.inr rfl, fun _ => rfl, fun _ => rfl, fun _ => rfl⟩
        obtain ⟨x, hx, hxe, hx1, hx2, hx3⟩ := hd
        refine ⟨x :: r, by simp [brev, hx, hr], .cons hxe hf, ?_, ?_⟩
        · rintro (h | h)
          · have e1 := (List.cons.inj h).1
            have e2 := (List.cons.inj h).2
            rw [hx3 (Or.inl e1), hfull (Or.inl e2)]
          · have e1 := (List.cons.inj h).1
            have e2 := (List.cons.inj h).2
            rw [hx3 (Or.inr e1), hfull (Or.inr e2)]
        · intro ix hix
          obtain ⟨i, jx, rfl, hj, hi'⟩ := inR_cons hix
          obtain ⟨q1, q2⟩ := hi jx hj
          simp only [irev, q1, q2]
          constructor
          · by_cases hd1 : d = 1
            · simp [hd1]
            · have := hx1 hd1
              have hx1' : x ≠ 1 := by omega
              simp [hd1, hx1']
          · by_cases hd1 : d' = 1
            · simp [hd1]
            · have := hx2 hd1
              have hx1' : x ≠ 1 := by omega
              simp [hd1, hx1']

theorem irev_self {s ix : List Nat} (h : InR s ix) : irev s ix = ix := by
  induction s generalizing ix with
  | nil => cases h; rfl
  | cons d s ih =>
    obtain ⟨i, jx, rfl, hj, hi⟩ := inR_cons h
    simp only [irev, ih hj]
    split_ifs with h1
    · have : i = 0 := by omega
      rw [this]
    · rfl

theorem bidx_self {s ix : List Nat} (h : InR s ix) : bidx s ix = ix := by
  unfold bidx
  rw [irev_self (inR_reverse h), List.reverse_reverse]

/-! ### Reading a tensor at a shape -/

/-- `a` can be broadcast to `s`. -/
def Fit (a s : List Nat) : Prop := FitR a.reverse s.reverse

/-- Broadcast to the shape `s`, the tensor has the entries `f`. -/
def Reads (t : Ten α) (s : List Nat) (f : List Nat → α) : Prop := Fit t.shape s ∧ ∀ ix, InR s ix → t.get (bidx t.shape ix) = f ix

theorem Reads.get {t : Ten α} {s : List Nat} {f : List Nat → α} (h : Reads t s f) (hs : t.shape = s) {ix : List Nat} (hix : InR s ix) :
    t.get ix = f ix := by
  have := h.2 ix hix
  rwa [hs, bidx_self hix] at this

theorem reads_self (t : Ten α) : Reads t t.shape t.get :=
  ⟨fitR_refl _, fun ix hix => by rw [bidx_self hix]⟩

theorem reads_congr {t : Ten α} {s : List Nat} {f g : List Nat → α} (h : Reads t s f) (e : ∀ ix, InR s ix → f ix = g ix) : Reads t s g :=
  ⟨h.1, fun ix hix => by rw [h.2 ix hix, e ix hix]⟩

/-- An operation on two tensors which can be broadcast to `s`. -/
theorem map2_reads {a : Ten α} {b : Ten β} {s : List Nat} {f : List Nat → α} {g : List Nat → β} (ha : Reads a s f) (hb : Reads b s g)
    (op : α → β → γ) : ∃ r, map2 op a b = .ok r ∧ Reads r s (fun ix => op (f ix) (g ix)) ∧ (a.shape = s ∨ b.shape = s → r.shape = s) := by
  obtain ⟨r, hr, hf, hfull, hi⟩ := brev_fit ha.1 hb.1
  have hbs : bshape a.shape b.shape = some r.reverse := by simp [bshape, hr]
  refine ⟨⟨r.reverse, fun ix => op (a.get (bidx a.shape ix)) (b.get (bidx b.shape ix))⟩, ?_, ⟨?_, ?_⟩, ?_⟩
  · simp only [map2, hbs]
  · simpa [Fit] using hf
  · intro ix hix
    obtain ⟨h1, h2⟩ := hi _ (inR_reverse hix)
    have e1 : bidx a.shape (bidx r.reverse ix) = bidx a.shape ix := by simp [bidx, h1]
    have e2 : bidx b.shape (bidx r.reverse ix) = bidx b.shape ix := by simp [bidx, h2]
    simp only [e1, e2, ha.2 ix hix, hb.2 ix hix]
  · rintro (h | h)
    · rw [hfull (Or.inl (by rw [h]))]; simp
    · rw [hfull (Or.inr (by rw [h]))]; simp

theorem map1_reads {a : Ten α} {s : List Nat} {f : List Nat → α} (ha : Reads a s f) (op : α → β) : Reads (map1 op a) s (fun ix => op (f ix)) :=
  ⟨ha.1, fun ix hix => by simp only [map1]; rw [ha.2 ix hix]⟩

theorem bidx_snoc (s ix : List Nat) (d i : Nat) : bidx (s ++ [d]) (ix ++ [i]) = bidx s ix ++ [if d = 1 then 0 else i] := by
  simp [bidx, irev]

theorem unsq_reads {t : Ten α} {s : List Nat} {f : List Nat → α} (h : Reads t s f) (d : Nat) :
    Reads (unsq t) (s ++ [d]) (fun ix => f ix.dropLast) := by
  refine ⟨?_, ?_⟩
  · simp only [Fit, unsq, List.reverse_append, List.reverse_singleton, List.singleton_append]
    exact .cons (Or.inl rfl) h.1
  · intro ix hix
    obtain ⟨jx, c, rfl, hj, hc⟩ := inR_snoc hix
    simp only [unsq, bidx_snoc, List.dropLast_concat]
    exact h.2 jx hj

theorem fit_snoc {a s : List Nat} {d e : Nat} (h : Fit (a ++ [d]) (s ++ [e])) : Fit a s ∧ (d = 1 ∨ d = e) := by
  simp only [Fit, List.reverse_append, List.reverse_singleton, List.singleton_append] at h
  cases h with
  | cons h1 h2 => exact ⟨h2, h1⟩

theorem sumLast_reads [AddMonoid α] {t : Ten α} {a s : List Nat} {d : Nat} (ht : t.shape = a ++ [d]) {f : List Nat → α}
    (h : Reads t (s ++ [d]) f) : Reads (sumLast t) s (fun ix => ((List.range d).map fun c => f (ix ++ [c])).sum) := by
  obtain ⟨hf, hv⟩ := h
  rw [ht] at hf hv
  refine ⟨?_, ?_⟩
  · simp only [sumLast, ht, List.dropLast_concat]
    exact (fit_snoc hf).1
  · intro ix hix
    simp only [sumLast, ht, List.dropLast_concat, List.getLastD_concat]
    congr 1
    refine List.map_congr_left fun c hc => ?_
    rw [List.mem_range] at hc
    have := hv (ix ++ [c]) (inR_append hix (.cons hc .nil))
    have e' : (if d = 1 then 0 else c) = c := by split_ifs <;> omega
    rwa [bidx_snoc, e'] at this

theorem mapRow_reads {t : Ten α} {a s : List Nat} {d : Nat} (ht : t.shape = a ++ [d]) {f : List Nat → α} (h : Reads t (s ++ [d]) f)
    (op : Nat → (Nat → α) → Nat → β) (hop : ∀ r r' : Nat → α, (∀ c < d, r c = r' c) → ∀ i < d, op d r i = op d r' i) :
    Reads (mapRow op t) (s ++ [d]) (fun ix => op d (fun c => f (ix.dropLast ++ [c])) (ix.getLastD 0)) := by
  obtain ⟨hf, hv⟩ := h
  refine ⟨hf, ?_⟩
  rw [ht] at hv
  intro ix hix
  obtain ⟨jx, c, rfl, hj, hc⟩ := inR_snoc hix
  simp only [mapRow, ht, bidx_snoc, List.dropLast_concat, List.getLastD_concat]
  have e : (if d = 1 then 0 else c) = c := by split_ifs <;> omega
  rw [e]
  refine hop _ _ (fun c' hc' => ?_) c hc
  have := hv (jx ++ [c']) (inR_append hj (.cons hc' .nil))
  have e' : (if d = 1 then 0 else c') = c' := by split_ifs <;> omega
  rwa [bidx_snoc, e'] at this

/-! ### The first dimension -/

theorem fitR_append {a s b t : List Nat} (h : FitR a s) (hl : a.length = s.length) (h' : FitR b t) : FitR (a ++ b) (s ++ t) := by
  induction h with
  | nil s => 
    have : s = [] := by simpa using hl.symm
    subst this; exact h'
  | cons h1 _ ih => exact .cons h1 (ih (by simpa using hl))

theorem irev_append {s ix : List Nat} (h : ix.length = s.length) (t jx : List Nat) : irev (s ++ t) (ix ++ jx) = irev s ix ++ irev t jx := by
  induction s generalizing ix with
  | nil => 
    have : ix = [] := by simpa using h
    subst this; rfl
  | cons d s ih =>
    cases ix with
    | nil => simp at h
    | cons i ix => simp only [List.cons_append, irev]; rw [ih (by simpa using h)]

theorem bidx_cons {s ix : List Nat} (h : ix.length = s.length) (d i : Nat) : bidx (d :: s) (i :: ix) = (if d = 1 then 0 else i) :: bidx s ix := by
  simp only [bidx, List.reverse_cons]
  rw [irev_append (by simpa using h)]
  simp [irev]

theorem fit_cons {d e : Nat} {a s : List Nat} (hd : d = 1 ∨ d = e) (h : Fit a s) (hl : a.length = s.length) : Fit (d :: a) (e :: s) := by
  simp only [Fit, List.reverse_cons]
  exact fitR_append h (by simpa using hl) (.cons hd (.nil _))

/-- `expand` of the first dimension. -/
theorem expand0_reads {t : Ten α} {L N : Nat} {s : List Nat} (ht : t.shape = L :: s) :
    (expand0 N t).shape = N :: s ∧
      Reads (expand0 N t) (N :: s) (fun ix => t.get ((if L = 1 then 0 else ix.headD 0) :: ix.tail)) := by
  have hs : (expand0 N t).shape = N :: s := by simp [expand0, ht]
  refine ⟨hs, ?_⟩
  have := reads_self (expand0 N t)
  rw [hs] at this
  refine reads_congr this fun ix hix => ?_
  obtain ⟨i, jx, rfl, _, _⟩ := inR_cons hix
  simp [expand0, ht]

theorem getLastD_cons (i c : Nat) (kx : List Nat) : (i :: (kx ++ [c])).getLastD 0 = c := by
  rw [← List.cons_append, List.getLastD_concat]

theorem prod_ones (k : Nat) : (List.replicate k 1).prod = 1 := by simp

theorem fit_ones (s : List Nat) : Fit (List.replicate s.length 1) s := by
  simp only [Fit, List.reverse_replicate]
  rw [← List.length_reverse]
  generalize s.reverse = t
  induction t with
  | nil => exact .nil _
  | cons d t ih => exact .cons (Or.inl rfl) ih

theorem bidx_ones {s ix : List Nat} (h : InR s ix) : bidx (List.replicate s.length 1) ix = List.replicate s.length 0 := by
  have hl := h.length
  clear h
  induction s generalizing ix with
  | nil => 
    have : ix = [] := by simpa using hl
    subst this; rfl
  | cons d s ih =>
    cases ix with
    | nil => simp at hl
    | cons i ix =>
      simp only [List.length_cons, List.replicate_succ]
      rw [bidx_cons (by simpa using hl), ih (by simpa using hl)]
      simp

theorem fit_append {a b s t : List Nat} (h : Fit a s) (hb : Fit b t) (hl : b.length = t.length) : Fit (a ++ b) (s ++ t) := by
  simp only [Fit, List.reverse_append]
  exact fitR_append hb (by simpa using hl) h

theorem bidx_append {b jx : List Nat} (h : jx.length = b.length) (a ix : List Nat) : bidx (a ++ b) (ix ++ jx) = bidx a ix ++ bidx b jx := by
  simp only [bidx, List.reverse_append]
  rw [irev_append (by simpa using h)]
  simp

theorem flat_ones (k : Nat) (s ix : List Nat) : flat (List.replicate k 1 ++ s) (List.replicate k 0 ++ ix) = flat s ix := by
  induction k with
  | zero => simp
  | succ k ih => simp only [List.replicate_succ, List.cons_append, flat]; rw [ih]; simp

/-- `t.view(-1, 1, …, 1, d)` of a tensor of shape `(N, d)`, read at a shape `(N, *m, d)`. -/
theorem viewB_reads {t : Ten α} {N d : Nat} (hd : 0 < d) (ht : t.shape = [N, d]) (m : List Nat) :
    ∃ r, viewB (List.replicate m.length 1 ++ [d]) t = .ok r ∧ r.shape = N :: (List.replicate m.length 1 ++ [d]) ∧
      Reads r (N :: (m ++ [d])) (fun ix => t.get [ix.headD 0, ix.getLastD 0]) := by
  have hp : (List.replicate m.length 1 ++ [d]).prod = d := by simp
  have hv : viewB (List.replicate m.length 1 ++ [d]) t = .ok ⟨N :: (List.replicate m.length 1 ++ [d]),
      fun ix => t.get (unflat t.shape (flat (N :: (List.replicate m.length 1 ++ [d])) ix))⟩ := by
    simp only [viewB]
    rw [hp, ht]
    have e : [N, d].prod = N * d := by simp
    rw [e, if_neg (by simp; omega), Nat.mul_div_cancel _ hd]
  refine ⟨_, hv, rfl, ?_, ?_⟩
  · exact fit_cons (Or.inr rfl) (fit_append (fit_ones m) (fitR_refl _) rfl) (by simp)
  · intro ix hix
    obtain ⟨i, jx, rfl, hj, hi⟩ := inR_cons hix
    obtain ⟨kx, c, rfl, hk, hc⟩ := inR_snoc hj
    have hkl := hk.length
    simp only
    rw [bidx_cons (by simp [hkl]), bidx_append (by simp), bidx_ones hk, ht]
    have e0 : (if N = 1 then 0 else i) = i := by split_ifs <;> omega
    have e1 : bidx [d] [c] = [c] := bidx_self (.cons hc .nil)
    rw [e0, e1]
    simp only [flat, hp, flat_ones, if_neg (show ¬ N = 0 by omega), if_neg (show ¬ d = 0 by omega), List.prod_nil, mul_one, Nat.add_zero,
      unflat, List.prod_singleton, Nat.div_one]
    have h1 : (i * d + c) / d = i := by
      rw [Nat.add_comm, Nat.add_mul_div_right _ _ hd, Nat.div_eq_of_lt hc, Nat.zero_add]
    have h2 : (i * d + c) % d = c := by
      rw [Nat.add_comm, Nat.add_mul_mod_self_right, Nat.mod_eq_of_lt hc]
    rw [h1, h2, getLastD_cons]
    rfl

/-- `t.view(-1, 1, …, 1)` of a tensor of shape `(N,)`. -/
theorem viewB_reads1 {t : Ten α} {N : Nat} (ht : t.shape = [N]) (m : List Nat) :
    ∃ r, viewB (List.replicate m.length 1) t = .ok r ∧ r.shape = N :: List.replicate m.length 1 ∧
      Reads r (N :: m) (fun ix => t.get [ix.headD 0]) := by
  have hv : viewB (List.replicate m.length 1) t = .ok ⟨N :: List.replicate m.length 1,
      fun ix => t.get (unflat t.shape (flat (N :: List.replicate m.length 1) ix))⟩ := by
    simp [viewB, ht, Nat.mod_one]
  refine ⟨_, hv, rfl, ?_, ?_⟩
  · exact fit_cons (Or.inr rfl) (fit_ones m) (by simp)
  · intro ix hix
    obtain ⟨i, jx, rfl, hj, hi⟩ := inR_cons hix
    simp only
    rw [bidx_cons (by simp [hj.length]), bidx_ones hj, ht]
    have e0 : (if N = 1 then 0 else i) = i := by split_ifs <;> omega
    have e1 := flat_ones m.length [] []
    simp only [List.append_nil] at e1
    rw [e0]
    simp only [flat, e1, prod_ones, if_neg (show ¬ N = 0 by omega), unflat, List.prod_nil, Nat.div_one, Nat.mul_one, Nat.add_zero]
    simp

/-- `t[:, None, …, None, :]` of a tensor of shape `(N, d)`. -/
theorem mid_reads {t : Ten α} {N B d : Nat} (ht : t.shape = [N, d]) (hN : N = 1 ∨ N = B) (m : List Nat) :
    (mid m.length t).shape = N :: (List.replicate m.length 1 ++ [d]) ∧
      Reads (mid m.length t) (B :: (m ++ [d])) (fun ix => t.get [if N = 1 then 0 else ix.headD 0, ix.getLastD 0]) := by
  have hs : (mid m.length t).shape = N :: (List.replicate m.length 1 ++ [d]) := by simp [mid, ht]
  refine ⟨hs, ?_, ?_⟩
  · rw [hs]
    exact fit_cons hN (fit_append (fit_ones m) (fitR_refl _) rfl) (by simp)
  · intro ix hix
    obtain ⟨i, jx, rfl, hj, hi⟩ := inR_cons hix
    obtain ⟨kx, c, rfl, hk, hc⟩ := inR_snoc hj
    have hkl := hk.length
    rw [hs, bidx_cons (by simp [hkl]), bidx_append (by simp), bidx_ones hk]
    have e1 : bidx [d] [c] = [c] := bidx_self (.cons hc .nil)
    rw [e1]
    simp only [getLastD_cons]
    simp [mid, Nat.add_comm 1]

example : bshape [2, 3] [4, 1, 2, 3] = some [4, 1, 2, 3] ∧ bshape [2, 3] [4, 5, 1, 3] = some [4, 5, 2, 3] ∧ bshape [2, 3] [4, 5, 3] = none ∧
    bidx [2, 1] [7, 1, 2] = [1, 0] ∧ unflat [2, 3] (flat [2, 1, 1, 3] [1, 0, 0, 2]) = [1, 2] := by decide +kernel
example : (squeeze (⟨[1, 3, 1], fun ix => ix⟩ : Ten (List Nat))).shape = [3] ∧
    (squeeze (⟨[1, 3, 1], fun ix => ix⟩ : Ten (List Nat))).get [2] = [0, 2, 0] := by decide +kernel

end P3D.Tens
