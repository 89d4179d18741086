/-
The autodecoder of implicitron (`implicitron/models/global_encoder/autodecoder.py`): a dictionary that gives each new key the next number, the table of codes, saving and loading.

The key map is the list of its entries in the order of insertion (Python dictionaries keep it).  The counter is the iterator behind the `defaultdict`.  Not modelled: initial values
and gradients of codes, devices, warnings.
-/
import Mathlib.Data.List.Nodup
import Mathlib.Data.List.Range
import Mathlib.Data.List.Lookmap
import Mathlib.Data.List.Dedup
import Mathlib.Data.List.Perm.Subperm
import Mathlib.Tactic.Linarith

set_option linter.unusedSectionVars false

namespace P3D.AutoDec

variable {κ : Type} [DecidableEq κ] [LawfulBEq κ] {C : Type}

/-! ### The code -/

/-- The key map: entries and the next number of the iterator (autodecoder.py:66). -/
structure KeyMap (κ : Type) where
  items : List (κ × Nat)
  next : Nat

inductive Err
  | value
  | stop
  | assertion
  | index
  deriving DecidableEq, Repr

/-- `key_map[x]` (line 66): the number of a known key, otherwise the next of `range(n)`; `none` is StopIteration. -/
def get (n : Nat) (m : KeyMap κ) (k : κ) : Option (Nat × KeyMap κ) :=
  match m.items.lookup k with
  | some i => some (i, m)
  | none => if m.next < n then some (m.next, ⟨m.items ++ [(k, m.next)], m.next + 1⟩) else none

/-- `[self._key_map[elem] for elem in x]` (line 107): the result and the map afterwards, also if it fails. -/
def getAll (n : Nat) (m : KeyMap κ) : List κ → Option (List Nat) × KeyMap κ
  | [] => (some [], m)
  | k :: ks =>
    match get n m k with
    | none => (none, m)
    | some (i, m') => ((getAll n m' ks).1.map (i :: ·), (getAll n m' ks).2)

/-- `_build_key_map` (lines 54-74) for a loaded dictionary. -/
def load (n : Nat) : KeyMap κ → List (κ × Nat) → Except Err (KeyMap κ)
  | m, [] => .ok m
  | m, (k, i) :: l =>
    match get n m k with
    | none => .error .stop
    | some (j, m') => if i = j then load n m' l else .error .assertion

def empty : KeyMap κ := ⟨[], 0⟩

/-- The dictionary that is saved (line 165). -/
def save (m : KeyMap κ) : List (κ × Nat) := m.items

/-- The input: strings or integers. -/
inductive Input (κ : Type)
  | keys (l : List κ)
  | ids (l : List Nat)

/-- The rows of the embedding (line 117). -/
def codesOf (codes : List C) (ids : List Nat) : Except Err (List C) :=
  match ids.mapM fun i => codes[i]? with
  | none => .error .index
  | some l => .ok l

/-- `forward` (lines 83-117) for a table of `n` codes; `singleton` is the key used if the input is ignored. -/
def forward (codes : List C) (ignore : Bool) (singleton : κ) (m : KeyMap κ) (x : Input κ) : Except Err (List C) × KeyMap κ :=
  match (if ignore = true then .keys [singleton] else x) with
  | .keys [] => (.error .index, m)
  | .ids [] => (.error .index, m)
  | .ids l => (codesOf codes l, m)
  | .keys l =>
    match getAll codes.length m l with
    | (none, m') => (.error .value, m')
    | (some ids, m') => (codesOf codes ids, m')

/-! ### The key map -/

/-- The numbers given are 0, 1, … in the order of insertion and every key has one. -/
structure Inv (n : Nat) (m : KeyMap κ) : Prop where
  ids : m.items.map Prod.snd = List.range m.next
  keys : (m.items.map Prod.fst).Nodup
  bound : m.next ≤ n

def keysOf (m : KeyMap κ) : List κ := m.items.map Prod.fst

theorem inv_empty (n : Nat) : Inv n (empty : KeyMap κ) := ⟨rfl, List.nodup_nil, Nat.zero_le _⟩

theorem lookup_none (l : List (κ × Nat)) (k : κ) : l.lookup k = none ↔ k ∉ l.map Prod.fst := by
  induction l with
  | nil => simp
  | cons x l ih =>
    obtain ⟨a, b⟩ := x
    by_cases h : k = a
    · subst h
      simp
    · rw [List.lookup_cons, show (k == a) = false by simpa using h]
      simp only [ih]
      simp [h]

theorem lookup_mem (l : List (κ × Nat)) (k : κ) (i : Nat) (h : l.lookup k = some i) : (k, i) ∈ l := by
  induction l with
  | nil => cases h
  | cons x l ih =>
    obtain ⟨a, b⟩ := x
    by_cases hk : k = a
    · subst hk
      rw [List.lookup_cons_self] at h
      rw [Option.some.inj h]
      exact List.mem_cons_self
    · rw [List.lookup_cons, show (k == a) = false by simpa using hk] at h
      exact List.mem_cons_of_mem _ (ih h)

theorem lookup_append (l l' : List (κ × Nat)) (k : κ) : (l ++ l').lookup k = (l.lookup k).or (l'.lookup k) := by
  induction l with
  | nil => simp
  | cons x l ih =>
    obtain ⟨a, b⟩ := x
    rw [List.cons_append, List.lookup_cons, List.lookup_cons]
    cases k == a with
    | true => rfl
    | false => exact ih

theorem next_length (n : Nat) (m : KeyMap κ) (h : Inv n m) : m.items.length = m.next := by
  have := congrArg List.length h.ids
  simpa using this

/-- What asking for a key does. -/
theorem get_spec (n : Nat) (m : KeyMap κ) (h : Inv n m) (k : κ) :
    (get n m k = none ↔ k ∉ keysOf m ∧ m.next = n) ∧
      ∀ i m', get n m k = some (i, m') → Inv n m' ∧ m'.items.lookup k = some i ∧ (∀ k' ∈ keysOf m, m'.items.lookup k' = m.items.lookup k') ∧
        keysOf m' = if k ∈ keysOf m then keysOf m else keysOf m ++ [k] := by
  unfold get
  cases hl : m.items.lookup k with
  | some i =>
    have hk : k ∈ keysOf m := List.mem_map.mpr ⟨(k, i), lookup_mem _ _ _ hl, rfl⟩
    refine ⟨⟨fun h => (by cases h), fun h => absurd hk h.1⟩, ?_⟩
    intro j m' hj
    dsimp only at hj
    obtain ⟨rfl, rfl⟩ := Prod.mk.inj (Option.some.inj hj)
    exact ⟨h, hl, fun _ _ => rfl, by rw [if_pos hk]⟩
  | none =>
    have hk : k ∉ keysOf m := (lookup_none _ _).mp hl
    dsimp only
    by_cases hn : m.next < n
    · rw [if_pos hn]
      refine ⟨⟨fun h => (by cases h), fun h => absurd h.2 (by omega)⟩, ?_⟩
      intro j m' hj
      obtain ⟨rfl, rfl⟩ := Prod.mk.inj (Option.some.inj hj)
      refine ⟨⟨?_, ?_, hn⟩, ?_, ?_, ?_⟩
      · dsimp only
        rw [List.map_append, h.ids, List.range_succ]
        rfl
      · dsimp only
        rw [List.map_append]
        exact h.keys.append (by simp) (by simpa using fun a ha => hk (List.mem_map.mpr ⟨(k, a), ha, rfl⟩))
      · dsimp only
        rw [lookup_append, hl]
        simp
      · intro k' hk'
        dsimp only
        rw [lookup_append]
        cases hl' : m.items.lookup k' with
        | none => exact absurd hk' ((lookup_none _ _).mp hl')
        | some i => rfl
      · rw [if_neg hk]
        simp [keysOf]
    · rw [if_neg hn]
      have := h.bound
      exact ⟨⟨fun _ => ⟨hk, by omega⟩, fun _ => rfl⟩, fun _ _ h => (by cases h)⟩

/-- A batch of keys: after it the map is still fine, known keys keep their numbers, and, if it succeeds, the result is the number of each key; it fails exactly if there are not enough numbers for
all keys, and then the keys before the first one without a number have got theirs. -/
theorem getAll_spec (n : Nat) (m : KeyMap κ) (h : Inv n m) (ks : List κ) :
    let r := getAll n m ks
    Inv n r.2 ∧ (∀ k ∈ keysOf m, r.2.items.lookup k = m.items.lookup k) ∧ (∀ k ∈ keysOf m, k ∈ keysOf r.2) ∧ (∀ k ∈ keysOf r.2, k ∈ keysOf m ∨ k ∈ ks) ∧
      (∀ ids, r.1 = some ids → ids.map some = ks.map (fun k => r.2.items.lookup k)) ∧ (r.1 = none → r.2.next = n ∧ ∃ k ∈ ks, k ∉ keysOf r.2) := by
  induction ks generalizing m with
  | nil =>
    refine ⟨h, fun _ _ => rfl, fun _ h => h, fun _ h => Or.inl h, ?_, fun h => (by cases h)⟩
    intro ids hi
    rw [← Option.some.inj hi]
    rfl
  | cons k ks ih =>
    have hg := get_spec n m h k
    rw [getAll]
    cases hget : get n m k with
    | none =>
      obtain ⟨h1, h2⟩ := hg.1.mp hget
      exact ⟨h, fun _ _ => rfl, fun _ h => h, fun _ h => Or.inl h, fun _ h => (by cases h), fun _ => ⟨h2, k, List.mem_cons_self, h1⟩⟩
    | some r =>
      obtain ⟨i, m'⟩ := r
      obtain ⟨g1, g2, g3, g4⟩ := hg.2 i m' hget
      obtain ⟨a1, a2, a3, a4, a5, a6⟩ := ih m' g1
      have hk' : k ∈ keysOf m' := by
        rw [g4]
        split_ifs with hk
        · exact hk
        · simp
      have hsub : ∀ x ∈ keysOf m, x ∈ keysOf m' := by
        intro x hx
        rw [g4]
        split_ifs
        · exact hx
        · exact List.mem_append_left _ hx
      dsimp only
      refine ⟨a1, ?_, fun x hx => a3 x (hsub x hx), ?_, ?_, ?_⟩
      · intro x hx
        rw [a2 x (hsub x hx), g3 x hx]
      · intro x hx
        rcases a4 x hx with hx | hx
        · rw [g4] at hx
          split_ifs at hx with hk
          · exact Or.inl hx
          · rcases List.mem_append.mp hx with hx | hx
            · exact Or.inl hx
            · exact Or.inr (by rw [List.mem_singleton.mp hx]; exact List.mem_cons_self)
        · exact Or.inr (List.mem_cons_of_mem _ hx)
      · intro ids hi
        cases hr : (getAll n m' ks).1 with
        | none =>
          rw [hr] at hi
          cases hi
        | some ids' =>
          rw [hr] at hi
          rw [← Option.some.inj hi, List.map_cons, List.map_cons, a5 ids' hr, a2 k hk', g2]
      · intro hi
        cases hr : (getAll n m' ks).1 with
        | none =>
          obtain ⟨b1, k', b2, b3⟩ := a6 hr
          exact ⟨b1, k', List.mem_cons_of_mem _ b2, b3⟩
        | some ids' =>
          rw [hr] at hi
          cases hi

/-- Different keys have different numbers, all below the number of codes. -/
theorem inv_inj (n : Nat) (m : KeyMap κ) (h : Inv n m) (k k' : κ) (i : Nat) (hk : m.items.lookup k = some i) (hk' : m.items.lookup k' = some i) : k = k' ∧ i < n := by
  have h1 := lookup_mem _ _ _ hk
  have h2 := lookup_mem _ _ _ hk'
  have hnd : (m.items.map Prod.snd).Nodup := by
    rw [h.ids]
    exact List.nodup_range
  have := List.inj_on_of_nodup_map hnd h1 h2 rfl
  refine ⟨congrArg Prod.fst this, ?_⟩
  have hi : i ∈ m.items.map Prod.snd := List.mem_map.mpr ⟨_, h1, rfl⟩
  rw [h.ids, List.mem_range] at hi
  have := h.bound
  omega

/-- A batch succeeds exactly if the known keys and those of the batch together are at most as many as the codes. -/
theorem getAll_enough (n : Nat) (m : KeyMap κ) (h : Inv n m) (ks : List κ) : (getAll n m ks).1 ≠ none ↔ (keysOf m ++ ks).dedup.length ≤ n := by
  obtain ⟨a1, a2, a3, a4, a5, a6⟩ := getAll_spec n m h ks
  have hlen : (keysOf (getAll n m ks).2).length = (getAll n m ks).2.next := by
    rw [keysOf, List.length_map]
    exact next_length n _ a1
  constructor
  · intro hne
    cases hr : (getAll n m ks).1 with
    | none => exact absurd hr hne
    | some ids =>
      have h5 := a5 ids hr
      have hsub : (keysOf m ++ ks).dedup ⊆ keysOf (getAll n m ks).2 := by
        intro x hx
        rw [List.mem_dedup] at hx
        rcases List.mem_append.mp hx with hx | hx
        · exact a3 x hx
        · by_contra hc
          have hl := (lookup_none _ _).mpr hc
          have : (none : Option Nat) ∈ ks.map fun k => (getAll n m ks).2.items.lookup k := List.mem_map.mpr ⟨x, hx, hl⟩
          rw [← h5] at this
          obtain ⟨y, -, hy⟩ := List.mem_map.mp this
          cases hy
      have := (List.subperm_of_subset (List.nodup_dedup _) hsub).length_le
      rw [hlen] at this
      have := a1.bound
      omega
  · intro hle hr
    obtain ⟨hn, k, hk, hk'⟩ := a6 hr
    have hsub : k :: keysOf (getAll n m ks).2 ⊆ (keysOf m ++ ks).dedup := by
      intro x hx
      rw [List.mem_dedup, List.mem_append]
      rcases List.mem_cons.mp hx with rfl | hx
      · exact Or.inr hk
      · exact a4 x hx
    have hnd : (k :: keysOf (getAll n m ks).2).Nodup := List.nodup_cons.mpr ⟨hk', a1.keys⟩
    have := (List.subperm_of_subset hnd hsub).length_le
    rw [List.length_cons, hlen, hn] at this
    omega

/-! ### Saving and loading -/

theorem load_prefix (n : Nat) (l : List (κ × Nat)) (m : KeyMap κ) (h : Inv n m) (hk : (keysOf m ++ l.map Prod.fst).Nodup) (hi : l.map Prod.snd = (List.range l.length).map (m.next + ·)) :
    load n m l = if m.next + l.length ≤ n then .ok ⟨m.items ++ l, m.next + l.length⟩ else .error .stop := by
  induction l generalizing m with
  | nil =>
    have := h.bound
    simp only [load, List.length_nil, Nat.add_zero, List.append_nil]
    rw [if_pos this]
  | cons x l ih =>
    obtain ⟨k, i⟩ := x
    have hg := get_spec n m h k
    have hnk : k ∉ keysOf m := by
      intro hk'
      rw [List.nodup_append] at hk
      exact hk.2.2 k hk' k (by simp) rfl
    have hi0 : i = m.next := by
      have := congrArg List.head? hi
      simpa [List.range_succ_eq_map] using this
    subst hi0
    have hil : l.map Prod.snd = (List.range l.length).map (m.next + 1 + ·) := by
      rw [List.map_cons, List.length_cons, List.range_succ_eq_map, List.map_cons] at hi
      rw [(List.cons.inj hi).2, List.map_map]
      congr 1
      funext a
      simp only [Function.comp]
      omega
    have hl : m.items.lookup k = none := (lookup_none _ _).mpr hnk
    rw [load]
    by_cases hn : m.next < n
    · have hget : get n m k = some (m.next, ⟨m.items ++ [(k, m.next)], m.next + 1⟩) := by
        unfold get
        rw [hl]
        exact if_pos hn
      rw [hget]
      dsimp only
      rw [if_pos rfl, ih _ (hg.2 _ _ hget).1 (by simpa [keysOf] using hk) hil]
      dsimp only
      rw [List.append_assoc, List.length_cons]
      simp only [show m.next + 1 + l.length = m.next + (l.length + 1) by omega]
      rfl
    · have hget : get n m k = none := by
        unfold get
        rw [hl]
        exact if_neg hn
      rw [hget]
      dsimp only
      rw [if_neg]
      rw [List.length_cons]
      omega

/-- Loading a saved map gives that map back; with fewer codes than keys it fails. -/
theorem load_save (n n' : Nat) (m : KeyMap κ) (h : Inv n m) : load n' empty (save m) = if m.next ≤ n' then .ok m else .error .stop := by
  have hl := next_length n m h
  have := load_prefix n' m.items empty (inv_empty n') (by simpa [keysOf, empty] using h.keys) (by
    rw [h.ids, hl]
    simp [empty])
  rw [save, this, hl]
  simp [empty]

/-- A dictionary in another order is rejected. -/
theorem load_order (n : Nat) (k : κ) (i : Nat) (l : List (κ × Nat)) (hn : 0 < n) (hi : i ≠ 0) : load n empty ((k, i) :: l) = .error .assertion := by
  have hg : get n (empty : KeyMap κ) k = some (0, ⟨[(k, 0)], 1⟩) := by
    simp [get, empty, hn]
  rw [load, hg]
  exact if_neg hi

/-! ### Forward -/

theorem mapM_get (codes : List C) (ids : List Nat) (h : ∀ i ∈ ids, i < codes.length) :
    ∃ l, (ids.mapM fun i => codes[i]?) = some l ∧ l.map some = ids.map (codes[·]?) := by
  induction ids with
  | nil => exact ⟨[], rfl, rfl⟩
  | cons i ids ih =>
    obtain ⟨l, h1, h2⟩ := ih fun j hj => h j (List.mem_cons_of_mem _ hj)
    have hi := h i List.mem_cons_self
    refine ⟨codes[i] :: l, ?_, ?_⟩
    · rw [List.mapM_cons, h1, List.getElem?_eq_getElem hi]
      rfl
    · rw [List.map_cons, List.map_cons, h2, List.getElem?_eq_getElem hi]

/-- A batch of keys gives the codes of their numbers, or ValueError exactly if there are not enough codes. -/
theorem forward_keys (codes : List C) (s : κ) (m : KeyMap κ) (h : Inv codes.length m) (ks : List κ) (hk : ks ≠ []) :
    let r := forward codes false s m (.keys ks)
    Inv codes.length r.2 ∧ (∀ k ∈ keysOf m, r.2.items.lookup k = m.items.lookup k) ∧
      (r.1 = .error .value ↔ codes.length < (keysOf m ++ ks).dedup.length) ∧
      ((keysOf m ++ ks).dedup.length ≤ codes.length → ∃ out, r.1 = .ok out ∧ out.map some = ks.map fun k => (r.2.items.lookup k).bind (codes[·]?)) := by
  obtain ⟨a1, a2, a3, a4, a5, a6⟩ := getAll_spec codes.length m h ks
  have he := getAll_enough codes.length m h ks
  have hf : forward codes false s m (.keys ks) = match getAll codes.length m ks with
      | (none, m') => (.error .value, m')
      | (some ids, m') => (codesOf codes ids, m') := by
    cases ks with
    | nil => exact absurd rfl hk
    | cons k ks => rfl
  rw [hf]
  generalize hg : getAll codes.length m ks = g at *
  obtain ⟨r, m'⟩ := g
  cases r with
  | none =>
    have hlt : codes.length < (keysOf m ++ ks).dedup.length := by
      by_contra hc
      exact he.mpr (by omega) rfl
    exact ⟨a1, a2, ⟨fun _ => hlt, fun _ => rfl⟩, fun hc => absurd hc (by omega)⟩
  | some ids =>
    have hle := he.mp (by simp)
    have h5 := a5 ids rfl
    have hb : ∀ i ∈ ids, i < codes.length := by
      intro i hi
      have : some i ∈ ids.map some := List.mem_map.mpr ⟨i, hi, rfl⟩
      rw [h5] at this
      obtain ⟨k, -, hk⟩ := List.mem_map.mp this
      exact (inv_inj _ _ a1 k k i hk hk).2
    obtain ⟨l, h1, h2⟩ := mapM_get codes ids hb
    have hc : codesOf codes ids = .ok l := by
      unfold codesOf
      rw [h1]
    dsimp only
    rw [hc]
    refine ⟨a1, a2, ⟨fun h => (by cases h), fun h => absurd hle (by omega)⟩, fun _ => ⟨l, rfl, ?_⟩⟩
    rw [h2]
    have : ∀ (ids : List Nat) (ks : List κ), ids.map some = ks.map (fun k => m'.items.lookup k) → ids.map (codes[·]?) = ks.map fun k => (m'.items.lookup k).bind (codes[·]?) := by
      intro ids
      induction ids with
      | nil =>
        intro ks h
        cases ks with
        | nil => rfl
        | cons k ks => cases h
      | cons i ids ih =>
        intro ks h
        cases ks with
        | nil => cases h
        | cons k ks =>
          rw [List.map_cons, List.map_cons] at h
          obtain ⟨e1, e2⟩ := List.cons.inj h
          rw [List.map_cons, List.map_cons, ih ks e2, ← e1]
          rfl
    exact this ids ks h5

/-- A batch that ignores its input has one code, whatever the size of the batch. -/
theorem forward_ignore (codes : List C) (hc : 0 < codes.length) (s : κ) (x : Input κ) : (forward codes true s empty x).1 = .ok [codes[0]] := by
  unfold forward
  rw [if_pos rfl]
  dsimp only
  have hg : getAll codes.length (empty : KeyMap κ) [s] = (some [0], ⟨[(s, 0)], 1⟩) := by
    simp [getAll, get, empty, hc]
  rw [hg]
  dsimp only
  unfold codesOf
  have : ([0].mapM fun i => codes[i]?) = some [codes[0]] := by
    simp [hc]
  rw [this]

/-- Integers are rows of the table directly: they ignore the key map, so the code of an integer is shared with the key of that number. -/
theorem forward_ids (codes : List C) (s : κ) (m : KeyMap κ) (h : Inv codes.length m) (k : κ) (i : Nat) (hk : m.items.lookup k = some i) :
    (forward codes false s m (.ids [i])).1 = (forward codes false s m (.keys [k])).1 := by
  have hi := (inv_inj _ _ h k k i hk hk).2
  have hg : getAll codes.length m [k] = (some [i], m) := by
    simp [getAll, get, hk]
  show codesOf codes [i] = (match getAll codes.length m [k] with
      | (none, m') => (.error .value, m')
      | (some ids, m') => (codesOf codes ids, m') : Except Err (List C) × KeyMap κ).1
  rw [hg]

/-! ### Examples -/

/-- Two codes: a and b get them, c does not. -/
example : (forward ["x", "y"] false "singleton" empty (.keys ["a", "b", "a"])).1.toOption = some ["x", "y", "x"] := by decide +kernel

example : (match forward ["x", "y"] false "singleton" empty (.keys ["a", "b", "c"]) with | (.error e, m) => (e == .value, save m) | _ => (false, [])) = (true, [("a", 0), ("b", 1)]) := by decide +kernel

example : (match load 2 (empty : KeyMap String) [("a", 0), ("b", 1)] with | .ok m => m.next | _ => 9) = 2 := by decide +kernel

end P3D.AutoDec
