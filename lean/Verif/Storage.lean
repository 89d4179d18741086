/-
Blobs of the data base, models from checkpoints, the training loop of the NeRF project and devices.

* `implicitron/dataset/orm_types.py:36-124` (`ArrayTypeFactory`, `TupleTypeFactory`, `_rec_totuple`)
* `projects/implicitron_trainer/impl/model_factory.py:72-136` (`ImplicitronModelFactory.__call__`)
* `projects/nerf/train_nerf.py:66-267` (resuming, schedule, main loop, checkpoints), `projects/nerf/nerf/stats.py:107-160` (`epoch`, `new_epoch`)
* `common/datatypes.py:17-60` (`make_device`, `get_device`)

Simplifications: bytes are natural numbers, numpy's little-endian integers of a machine like x86; a float32 is whatever four bytes stand for, conversion to it is a parameter; a nested tuple is an array of its shape;
a model is the list of epochs it was trained on and the exponents of its learning rates; a state dict maps names to shape and value.
-/
import Mathlib.Algebra.BigOperators.Group.List.Basic
import Mathlib.Data.List.OfFn
import Mathlib.Data.List.Nodup
import Mathlib.Data.List.Range
import Mathlib.Tactic.Ring
import Mathlib.Tactic.Linarith
import Mathlib.Tactic.NormNum

set_option linter.unusedSectionVars false

namespace P3D.Storage

/-- What can go wrong. -/
inductive Err where
  | value
  | struct
  | type
  | assertion
  | runtime
  | fileNotFound
  deriving DecidableEq, Repr

/-! ## Bytes -/

/-- Little-endian bytes of a number. -/
def le : Nat → Nat → List Nat
  | 0, _ => []
  | k + 1, x => x % 256 :: le k (x / 256)

/-- The number of little-endian bytes. -/
def num : List Nat → Nat
  | [] => 0
  | b :: l => b + 256 * num l

theorem le_length (k x : Nat) : (le k x).length = k := by
  induction k generalizing x with
  | zero => rfl
  | succ k ih => simp [le, ih]

theorem num_le (k x : Nat) (h : x < 256 ^ k) : num (le k x) = x := by
  induction k generalizing x with
  | zero => simp at h; simp [le, num, h]
  | succ k ih =>
    have h' : x / 256 < 256 ^ k := by
      rw [Nat.div_lt_iff_lt_mul (by norm_num)]
      rw [pow_succ] at h
      exact h
    simp only [le, num, ih _ h']
    omega

/-- Consecutive pieces of `k` bytes, `np.frombuffer` and `struct.unpack`. -/
def chunks (k : Nat) (l : List Nat) : List (List Nat) := (List.range (l.length / k)).map (fun i => (l.drop (i * k)).take k)

theorem chunks_flatMap {A : Type} (k : Nat) (hk : 0 < k) (f : A → List Nat) (xs : List A) (h : ∀ x ∈ xs, (f x).length = k) : chunks k (xs.flatMap f) = xs.map f := by
  have hlen : ∀ xs : List A, (∀ x ∈ xs, (f x).length = k) → (xs.flatMap f).length = xs.length * k := by
    intro xs
    induction xs with
    | nil => intro _; simp
    | cons x xs ih =>
      intro h
      rw [List.flatMap_cons, List.length_append, h x (List.mem_cons_self ..), ih (fun y hy => h y (List.mem_cons_of_mem _ hy)), List.length_cons]
      ring
  unfold chunks
  rw [hlen xs h, Nat.mul_div_cancel _ hk]
  induction xs with
  | nil => rfl
  | cons x xs ih =>
    have hx := h x (List.mem_cons_self ..)
    have h' := fun y hy => h y (List.mem_cons_of_mem _ hy)
    rw [List.length_cons, List.range_succ_eq_map, List.map_cons, List.map_map, List.map_cons, List.flatMap_cons]
    refine List.cons_eq_cons.mpr ⟨?_, ?_⟩
    · rw [Nat.zero_mul, List.drop_zero, ← hx, List.take_left]
    · rw [← ih h']
      refine List.map_congr_left (fun i _ => ?_)
      simp only [Function.comp]
      rw [show (i + 1) * k = (f x).length + i * k by rw [hx]; ring, List.drop_append, List.drop_of_length_le (Nat.le_add_right _ _), Nat.add_sub_cancel_left, List.nil_append]

theorem chunks_length (k : Nat) (l : List Nat) : (chunks k l).length = l.length / k := by simp [chunks]

/-! ## Arrays of any shape -/

/-- A value with four bytes: `pk` are the bytes (`none` if out of range), `un` reads them, `rd` is the value that is stored. -/
structure Codec (V : Type) where
  pk : V → Option (List Nat)
  un : List Nat → V
  rd : V → V
  len : ∀ v b, pk v = some b → b.length = 4
  back : ∀ v b, pk v = some b → un b = rd v

/-- An array: its shape and its values in row-major order. -/
structure Arr (V : Type) where
  shape : List Nat
  data : List V

/-- `VariableShapeNumpyArrayType.process_bind_param`, lines 42-49, for values that all have bytes (every float has a float32, if need be an infinity). -/
def bindVar {V : Type} (c : Codec V) (a : Arr V) : List Nat := le 4 a.shape.length ++ (a.shape.flatMap (le 8) ++ a.data.flatMap (fun v => (c.pk v).getD [0, 0, 0, 0]))

/-- `process_result_value`, lines 51-61; headers with negative numbers, which are never written, are not modelled. -/
def readVar {V : Type} (c : Codec V) (b : List Nat) : Except Err (Arr V) :=
  if b.length < 4 then .error .value
  else
    let n := num (b.take 4)
    let sb := (b.drop 4).take (8 * n)
    if sb.length % 8 ≠ 0 then .error .value
    else
      let shape := (chunks 8 sb).map num
      if shape.length ≠ n then .error .assertion
      else
        let vb := b.drop (4 + 8 * n)
        if vb.length % 4 ≠ 0 then .error .value
        else
          let data := (chunks 4 vb).map c.un
          if data.length ≠ shape.prod then .error .value else .ok ⟨shape, data⟩

theorem flatMap_len {A : Type} (k : Nat) (f : A → List Nat) (xs : List A) (h : ∀ x ∈ xs, (f x).length = k) : (xs.flatMap f).length = k * xs.length := by
  induction xs with
  | nil => simp
  | cons x xs ih =>
    rw [List.flatMap_cons, List.length_append, h x (List.mem_cons_self ..), ih (fun y hy => h y (List.mem_cons_of_mem _ hy)), List.length_cons]
    ring

theorem pk_len {V : Type} (c : Codec V) (v : V) : ((c.pk v).getD [0, 0, 0, 0]).length = 4 := by
  cases h : c.pk v with
  | none => rfl
  | some b => exact c.len v b h

/-- An array is read back with its shape, its values rounded to those that can be stored. -/
theorem var_roundtrip {V : Type} (c : Codec V) (a : Arr V) (hpk : ∀ v ∈ a.data, (c.pk v).isSome) (hd : a.data.length = a.shape.prod) (hn : a.shape.length < 2 ^ 31) (hs : ∀ s ∈ a.shape, s < 2 ^ 63) :
    readVar c (bindVar c a) = .ok ⟨a.shape, a.data.map c.rd⟩ := by
  have hl4 : ∀ x : Nat, (le 4 x).length = 4 := fun x => le_length 4 x
  have hS : (a.shape.flatMap (le 8)).length = 8 * a.shape.length := flatMap_len 8 _ _ (fun x _ => le_length 8 x)
  have e1 : (bindVar c a).take 4 = le 4 a.shape.length := by
    unfold bindVar
    rw [List.take_append_of_le_length (by rw [hl4]), List.take_of_length_le (by rw [hl4])]
  have e2 : num ((bindVar c a).take 4) = a.shape.length := by
    rw [e1, num_le]
    calc a.shape.length < 2 ^ 31 := hn
      _ < 256 ^ 4 := by norm_num
  have e3 : (bindVar c a).drop 4 = a.shape.flatMap (le 8) ++ a.data.flatMap (fun v => (c.pk v).getD [0, 0, 0, 0]) := by
    unfold bindVar
    rw [List.drop_append_of_le_length (by rw [hl4]), List.drop_of_length_le (by rw [hl4]), List.nil_append]
  have e4 : ((bindVar c a).drop 4).take (8 * a.shape.length) = a.shape.flatMap (le 8) := by
    rw [e3, List.take_append_of_le_length (by rw [hS]), List.take_of_length_le (by rw [hS])]
  have e5 : (bindVar c a).drop (4 + 8 * a.shape.length) = a.data.flatMap (fun v => (c.pk v).getD [0, 0, 0, 0]) := by
    rw [← List.drop_drop, e3, List.drop_append_of_le_length (by rw [hS]), List.drop_of_length_le (by rw [hS]), List.nil_append]
  have e6 : (chunks 8 (a.shape.flatMap (le 8))).map num = a.shape := by
    rw [chunks_flatMap 8 (by norm_num) _ _ (fun x _ => le_length 8 x), List.map_map]
    conv_rhs => rw [← List.map_id a.shape]
    refine List.map_congr_left (fun s h => ?_)
    simp only [Function.comp, id]
    refine num_le 8 s ?_
    calc s < 2 ^ 63 := hs s h
      _ < 256 ^ 8 := by norm_num
  have e7 : (chunks 4 (a.data.flatMap (fun v => (c.pk v).getD [0, 0, 0, 0]))).map c.un = a.data.map c.rd := by
    rw [chunks_flatMap 4 (by norm_num) _ _ (fun v _ => pk_len c v), List.map_map]
    refine List.map_congr_left (fun v h => ?_)
    obtain ⟨b, hb⟩ := Option.isSome_iff_exists.mp (hpk v h)
    simp only [Function.comp, hb, Option.getD_some]
    exact c.back v b hb
  have hlen : ¬ (bindVar c a).length < 4 := by
    unfold bindVar
    rw [List.length_append, hl4]
    omega
  unfold readVar
  rw [if_neg hlen]
  dsimp only
  rw [e2, e4, e5, e6, e7, hS, flatMap_len 4 _ _ (fun v _ => pk_len c v), if_neg (by omega), if_neg (by simp), if_neg (by omega), if_neg (by simp [hd])]

/-- What is read always has as many values as its shape says. -/
theorem readVar_shape {V : Type} (c : Codec V) (b : List Nat) (a : Arr V) (h : readVar c b = .ok a) : a.data.length = a.shape.prod := by
  unfold readVar at h
  dsimp only at h
  split at h
  · cases h
  · split at h
    · cases h
    · split at h
      · cases h
      · split at h
        · cases h
        · split at h
          · cases h
          · rename_i hd
            injection h with h
            subst h
            simpa using hd

/-- A blob that was cut is never read as an array. -/
theorem readVar_truncated {V : Type} (c : Codec V) (a : Arr V) (hd : a.data.length = a.shape.prod) (hn : a.shape.length < 2 ^ 31) (hs : ∀ s ∈ a.shape, s < 2 ^ 63) (m : Nat) (hm : m < (bindVar c a).length) :
    ∃ e, readVar c ((bindVar c a).take m) = .error e := by
  have hl4 : ∀ x : Nat, (le 4 x).length = 4 := fun x => le_length 4 x
  have hS : (a.shape.flatMap (le 8)).length = 8 * a.shape.length := flatMap_len 8 _ _ (fun x _ => le_length 8 x)
  have hV : (a.data.flatMap (fun v => (c.pk v).getD [0, 0, 0, 0])).length = 4 * a.data.length := flatMap_len 4 _ _ (fun v _ => pk_len c v)
  have htot : (bindVar c a).length = 4 + 8 * a.shape.length + 4 * a.data.length := by
    unfold bindVar
    rw [List.length_append, List.length_append, hl4, hS, hV]
    omega
  have hml : ((bindVar c a).take m).length = m := by
    rw [List.length_take]
    omega
  unfold readVar
  rw [hml]
  by_cases h4 : m < 4
  · exact ⟨_, if_pos h4⟩
  · rw [if_neg h4]
    dsimp only
    have e1 : ((bindVar c a).take m).take 4 = le 4 a.shape.length := by
      rw [List.take_take, Nat.min_eq_left (by omega)]
      unfold bindVar
      rw [List.take_append_of_le_length (by rw [hl4]), List.take_of_length_le (by rw [hl4])]
    have e2 : num (((bindVar c a).take m).take 4) = a.shape.length := by
      rw [e1, num_le]
      calc a.shape.length < 2 ^ 31 := hn
        _ < 256 ^ 4 := by norm_num
    rw [e2]
    have hsl : ((((bindVar c a).take m).drop 4).take (8 * a.shape.length)).length = min (8 * a.shape.length) (m - 4) := by
      rw [List.length_take, List.length_drop, hml]
    rw [hsl]
    split_ifs with h5 h6 h7 h8
    · exact ⟨_, rfl⟩
    · exact ⟨_, rfl⟩
    · exact ⟨_, rfl⟩
    · exact ⟨_, rfl⟩
    · exfalso
      push Not at h5 h6 h7 h8
      rw [List.length_map, chunks_length, hsl] at h6
      have hm8 : 4 + 8 * a.shape.length ≤ m := by
        rcases le_total (8 * a.shape.length) (m - 4) with h | h
        · omega
        · rw [Nat.min_eq_right h] at h6 h5
          omega
      have e4 : (((bindVar c a).take m).drop 4).take (8 * a.shape.length) = a.shape.flatMap (le 8) := by
        rw [List.drop_take, List.take_take, Nat.min_eq_left (by omega)]
        unfold bindVar
        rw [List.drop_append_of_le_length (by rw [hl4]), List.drop_of_length_le (by rw [hl4]), List.nil_append, List.take_append_of_le_length (by rw [hS]), List.take_of_length_le (by rw [hS])]
      have e6 : (chunks 8 (a.shape.flatMap (le 8))).map num = a.shape := by
        rw [chunks_flatMap 8 (by norm_num) _ _ (fun x _ => le_length 8 x), List.map_map]
        conv_rhs => rw [← List.map_id a.shape]
        refine List.map_congr_left (fun s h => ?_)
        simp only [Function.comp, id]
        refine num_le 8 s ?_
        calc s < 2 ^ 63 := hs s h
          _ < 256 ^ 8 := by norm_num
      rw [e4, e6, List.length_map, chunks_length, List.length_drop, hml, ← hd] at h8
      rw [List.length_drop, hml] at h7
      omega

/-- `NumpyArrayType`, lines 65-78. -/
def bindFixed {V : Type} (c : Codec V) (shape : List Nat) (a : Arr V) : Except Err (List Nat) := if a.shape ≠ shape then .error .value else .ok (a.data.flatMap (fun v => (c.pk v).getD [0, 0, 0, 0]))

/-- Its reading, lines 75-78. -/
def readFixed {V : Type} (c : Codec V) (shape : List Nat) (b : List Nat) : Except Err (Arr V) :=
  if b.length % 4 ≠ 0 then .error .value
  else
    let data := (chunks 4 b).map c.un
    if data.length ≠ shape.prod then .error .value else .ok ⟨shape, data⟩

/-- Arrays of the declared shape are read back, others are refused. -/
theorem fixed_roundtrip {V : Type} (c : Codec V) (shape : List Nat) (a : Arr V) (hpk : ∀ v ∈ a.data, (c.pk v).isSome) (hd : a.data.length = a.shape.prod) :
    (a.shape = shape → ∃ b, bindFixed c shape a = .ok b ∧ readFixed c shape b = .ok ⟨shape, a.data.map c.rd⟩) ∧ (a.shape ≠ shape → bindFixed c shape a = .error .value) := by
  refine ⟨fun h => ?_, fun h => by rw [bindFixed, if_pos h]⟩
  refine ⟨_, by rw [bindFixed, if_neg (by simpa using h)], ?_⟩
  have e7 : (chunks 4 (a.data.flatMap (fun v => (c.pk v).getD [0, 0, 0, 0]))).map c.un = a.data.map c.rd := by
    rw [chunks_flatMap 4 (by norm_num) _ _ (fun v _ => pk_len c v), List.map_map]
    refine List.map_congr_left (fun v h => ?_)
    obtain ⟨b, hb⟩ := Option.isSome_iff_exists.mp (hpk v h)
    simp only [Function.comp, hb, Option.getD_some]
    exact c.back v b hb
  unfold readFixed
  rw [flatMap_len 4 _ _ (fun v _ => pk_len c v), if_neg (by omega)]
  dsimp only
  rw [e7, if_neg (by rw [List.length_map, hd, h]; simp)]

/-! ## Nested tuples -/

/-- A nested tuple of a shape. -/
def Nd (V : Type) : List Nat → Type
  | [] => V
  | n :: s => Fin n → Nd V s

/-- `np.array(value).reshape(-1)`, line 99. -/
def flat {V : Type} : (s : List Nat) → Nd V s → List V
  | [], v => [v]
  | _ :: s, f => (List.ofFn (fun i => flat s (f i))).flatten

/-- `reshape(shape).tolist()` and `_rec_totuple`, lines 109-112 and 119-123; `none` if there are too few values. -/
def nest {V : Type} : (s : List Nat) → List V → Option (Nd V s)
  | [], l => l.head?
  | n :: s, l =>
    let f : Fin n → Option (Nd V s) := fun i => nest s ((l.drop (i * s.prod)).take s.prod)
    if h : ∀ i, (f i).isSome then some (fun i => (f i).get (h i)) else none

/-- The values, each changed. -/
def Nd.map {V : Type} (g : V → V) : (s : List Nat) → Nd V s → Nd V s
  | [], v => g v
  | _ :: s, f => fun i => Nd.map g s (f i)

theorem flat_length {V : Type} (s : List Nat) (t : Nd V s) : (flat s t).length = s.prod := by
  induction s with
  | nil => rfl
  | cons n s ih =>
    simp only [flat, List.length_flatten, List.map_ofFn, List.prod_cons]
    have : (List.length ∘ fun i => flat s (t i)) = fun _ : Fin n => s.prod := by
      funext i
      exact ih (t i)
    rw [this, List.ofFn_const]
    simp

theorem flatten_piece {V : Type} (n k : Nat) (f : Fin n → List V) (h : ∀ i, (f i).length = k) (i : Fin n) : (((List.ofFn f).flatten).drop (i * k)).take k = f i := by
  induction n with
  | zero => exact i.elim0
  | succ n ih =>
    rw [List.ofFn_succ, List.flatten_cons]
    refine Fin.cases ?_ (fun j => ?_) i
    · rw [Fin.val_zero, Nat.zero_mul, List.drop_zero, ← h 0, List.take_left]
    · rw [Fin.val_succ, show ((j : Nat) + 1) * k = (f 0).length + j * k by rw [h 0]; ring, List.drop_append]
      simp only [List.drop_of_length_le (Nat.le_add_right _ _), Nat.add_sub_cancel_left, List.nil_append]
      exact ih (fun j => f j.succ) (fun j => h j.succ) j

theorem flat_map {V : Type} (g : V → V) (s : List Nat) (t : Nd V s) : flat s (Nd.map g s t) = (flat s t).map g := by
  induction s with
  | nil => rfl
  | cons n s ih =>
    simp only [flat, Nd.map, List.map_flatten, List.map_ofFn]
    congr 2
    funext i
    exact ih (t i)

/-- Nesting undoes flattening. -/
theorem nest_flat {V : Type} (s : List Nat) (t : Nd V s) : nest s (flat s t) = some t := by
  induction s with
  | nil => rfl
  | cons n s ih =>
    have key : ∀ i : Fin n, nest s (((flat (n :: s) t).drop (i * s.prod)).take s.prod) = some (t i) := by
      intro i
      have : ((flat (n :: s) t).drop (i * s.prod)).take s.prod = flat s (t i) := flatten_piece n s.prod (fun i => flat s (t i)) (fun i => flat_length s (t i)) i
      rw [this, ih]
    unfold nest
    dsimp only
    rw [dif_pos (fun i => by rw [key i]; rfl)]
    congr 1
    funext i
    simp only [key, Option.get_some]

/-- Any list of the right length can be nested, and flattening gives it back. -/
theorem flat_nest {V : Type} (s : List Nat) (l : List V) (h : l.length = s.prod) : ∃ t, nest s l = some t ∧ flat s t = l := by
  induction s generalizing l with
  | nil =>
    match l, h with
    | [v], _ => exact ⟨v, rfl, rfl⟩
  | cons n s ih =>
    rw [List.prod_cons] at h
    have key : ∀ i : Fin n, ∃ t, nest s ((l.drop (i * s.prod)).take s.prod) = some t ∧ flat s t = (l.drop (i * s.prod)).take s.prod := by
      intro i
      refine ih _ ?_
      rw [List.length_take, List.length_drop, h]
      have h1 : ((i : Nat) + 1) * s.prod ≤ n * s.prod := Nat.mul_le_mul_right _ i.isLt
      rw [Nat.add_mul, Nat.one_mul] at h1
      omega
    choose t ht1 ht2 using key
    refine ⟨t, ?_, ?_⟩
    · unfold nest
      dsimp only
      rw [dif_pos (fun i => by rw [ht1 i]; rfl)]
      congr 1
      funext i
      simp only [ht1, Option.get_some]
    · have gen : ∀ (n k : Nat) (l : List V), l.length = n * k → (List.ofFn (fun i : Fin n => (l.drop (i * k)).take k)).flatten = l := by
        intro n k
        induction n with
        | zero =>
          intro l hl
          rw [Nat.zero_mul] at hl
          rw [List.length_eq_zero_iff.mp hl]
          rfl
        | succ n ihn =>
          intro l hl
          rw [List.ofFn_succ, List.flatten_cons]
          have := ihn (l.drop k) (by rw [List.length_drop, hl, Nat.succ_mul]; omega)
          simp only [List.drop_drop] at this
          have e : (fun i : Fin n => (l.drop (((i.succ : Fin (n + 1)) : Nat) * k)).take k) = fun i : Fin n => (l.drop (k + (i : Nat) * k)).take k := by
            funext i
            rw [Fin.val_succ]
            congr 2
            ring
          rw [e, this, Fin.val_zero, Nat.zero_mul, List.drop_zero, List.take_append_drop]
      simp only [flat, ht2]
      exact gen n s.prod l h

/-- Packing of values, `struct.pack`, line 101. -/
def packAll {V : Type} (c : Codec V) : List V → Except Err (List Nat)
  | [] => .ok []
  | v :: l => match c.pk v, packAll c l with
    | some b, .ok bs => .ok (b ++ bs)
    | none, _ => .error .struct
    | _, .error e => .error e

/-- `TupleType.process_bind_param`, lines 94-101: a value of shape `s'` for a column of shape `s`. -/
def bindTuple {V : Type} (c : Codec V) (s s' : List Nat) (v : Nd V s') : Except Err (List Nat) :=
  if s.length ≤ 1 ∧ s'.length = 0 then .error .type
  else if s.length ≤ 1 ∧ s'.length ≠ 1 then .error .struct
  else if (flat s' v).length ≠ s.prod then .error .struct
  else packAll c (flat s' v)

/-- `TupleType.process_result_value`, lines 104-114. -/
def readTuple {V : Type} (c : Codec V) (s : List Nat) (b : List Nat) : Except Err (Nd V s) :=
  if b.length ≠ 4 * s.prod then .error .struct
  else match nest s ((chunks 4 b).map c.un) with
    | some t => .ok t
    | none => .error .value

theorem packAll_ok {V : Type} (c : Codec V) (l : List V) : (∀ b, packAll c l = .ok b → (∀ v ∈ l, (c.pk v).isSome) ∧ b = l.flatMap (fun v => (c.pk v).getD [0, 0, 0, 0])) ∧
    ((∀ v ∈ l, (c.pk v).isSome) → packAll c l = .ok (l.flatMap (fun v => (c.pk v).getD [0, 0, 0, 0]))) := by
  induction l with
  | nil => simp [packAll]
  | cons v l ih =>
    constructor
    · intro b h
      unfold packAll at h
      split at h
      · rename_i b1 b2 h1 h2
        injection h with h
        obtain ⟨h3, h4⟩ := ih.1 b2 h2
        refine ⟨?_, ?_⟩
        · intro x hx
          rcases List.mem_cons.mp hx with rfl | hx
          · rw [h1]; rfl
          · exact h3 x hx
        · rw [List.flatMap_cons, h1, Option.getD_some, ← h4, h]
      · cases h
      · cases h
    · intro h
      obtain ⟨b, hb⟩ := Option.isSome_iff_exists.mp (h v (List.mem_cons_self ..))
      unfold packAll
      rw [hb, ih.2 (fun x hx => h x (List.mem_cons_of_mem _ hx)), List.flatMap_cons, hb]
      rfl

/-- A blob is read as a tuple exactly if it has four bytes for every value of the column's shape. -/
theorem readTuple_length {V : Type} (c : Codec V) (s : List Nat) (b : List Nat) : (∃ t, readTuple c s b = .ok t) ↔ b.length = 4 * s.prod := by
  unfold readTuple
  by_cases h : b.length = 4 * s.prod
  · rw [if_neg (fun hn => hn h)]
    obtain ⟨t, ht, -⟩ := flat_nest s ((chunks 4 b).map c.un) (by rw [List.length_map, chunks_length, h, Nat.mul_div_cancel_left _ (by omega)])
    rw [ht]
    exact ⟨fun _ => h, fun _ => ⟨t, rfl⟩⟩
  · rw [if_pos h]
    constructor
    · rintro ⟨t, ht⟩
      cases ht
    · exact fun h' => (h h').elim

/-- A tuple of the column's shape is read back as it was, its values rounded.  With several dimensions a tuple of any shape with the right number of values is accepted and read back in the shape of the column, in the same order. -/
theorem tuple_roundtrip {V : Type} (c : Codec V) (s s' : List Nat) (v : Nd V s') (b : List Nat) (h : bindTuple c s s' v = .ok b) :
    ∃ t, readTuple c s b = .ok t ∧ flat s t = (flat s' v).map c.rd ∧ ∀ e : s' = s, t = Nd.map c.rd s (e ▸ v) := by
  unfold bindTuple at h
  split_ifs at h with h1 h2 h3
  push Not at h3
  obtain ⟨hp, rfl⟩ := (packAll_ok c _).1 b h
  have e7 : (chunks 4 ((flat s' v).flatMap (fun v => (c.pk v).getD [0, 0, 0, 0]))).map c.un = (flat s' v).map c.rd := by
    rw [chunks_flatMap 4 (by norm_num) _ _ (fun v _ => pk_len c v), List.map_map]
    refine List.map_congr_left (fun v h => ?_)
    obtain ⟨b, hb⟩ := Option.isSome_iff_exists.mp (hp v h)
    simp only [Function.comp, hb, Option.getD_some]
    exact c.back v b hb
  obtain ⟨t, ht1, ht2⟩ := flat_nest s ((flat s' v).map c.rd) (by rw [List.length_map, h3])
  refine ⟨t, ?_, ht2, ?_⟩
  · unfold readTuple
    rw [flatMap_len 4 _ _ (fun v _ => pk_len c v), h3, if_neg (by simp), e7, ht1]
  · rintro rfl
    have := nest_flat s' (Nd.map c.rd s' v)
    rw [flat_map, ht1] at this
    exact Option.some.inj this

/-- When a tuple is accepted: a flat one of the right length for a column with one dimension, any with the right number of values otherwise; all values in range. -/
theorem tuple_accepted {V : Type} (c : Codec V) (s s' : List Nat) (v : Nd V s') : (∃ b, bindTuple c s s' v = .ok b) ↔ (s.length ≤ 1 → s'.length = 1) ∧ s'.prod = s.prod ∧ ∀ x ∈ flat s' v, (c.pk x).isSome := by
  unfold bindTuple
  rw [flat_length]
  constructor
  · rintro ⟨b, h⟩
    split_ifs at h with h1 h2 h3
    push Not at h3
    refine ⟨fun hs => ?_, h3, ((packAll_ok c _).1 b h).1⟩
    by_contra hc
    exact h2 ⟨hs, hc⟩
  · rintro ⟨h1, h2, h3⟩
    rw [if_neg (by rintro ⟨a, b⟩; have := h1 a; omega), if_neg (by rintro ⟨a, b⟩; exact b (h1 a)), if_neg (by simp [h2])]
    exact ⟨_, (packAll_ok c _).2 h3⟩

/-- The format "i" of `struct`: signed numbers of 32 bits, others are refused. -/
def int32 : Codec Int where
  pk i := if -2 ^ 31 ≤ i ∧ i < 2 ^ 31 then some (le 4 (i % 2 ^ 32).toNat) else none
  un b := if num b < 2 ^ 31 then (num b : Int) else (num b : Int) - 2 ^ 32
  rd i := i
  len i b h := by
    split_ifs at h
    injection h with h
    rw [← h, le_length]
  back i b h := by
    split_ifs at h with hr
    injection h with h
    rw [← h, num_le 4 _ (by omega)]
    split_ifs <;> omega

/-- Sizes of images come back exactly. -/
theorem image_size_back (h w : Int) (b : List Nat) (hb : bindTuple int32 [2] [2] (fun i : Fin 2 => if i = 0 then h else w) = .ok b) :
    readTuple int32 [2] b = .ok (fun i : Fin 2 => if i = 0 then h else w) := by
  obtain ⟨t, h1, -, h3⟩ := tuple_roundtrip int32 [2] [2] _ b hb
  rw [h1, h3 rfl]
  rfl

/-! ## Models from checkpoints -/

/-- What the factory does with the model. -/
inductive Act where
  | fresh
  | load (path : String)
  deriving DecidableEq, Repr

/-- `ImplicitronModelFactory.__call__`, lines 72-136: `path` is the file of an epoch, `last` the last checkpoint. -/
def factory (isFile : String → Bool) (path : Int → String) (last : Option String) (resume force : Bool) (epoch : Int) : Except Err Act :=
  let found : Except Err (Option String) := if 0 < epoch then (if isFile (path epoch) then .ok (some (path epoch)) else .error .value) else .ok last
  match found with
  | .error e => .error e
  | .ok (some p) => if force || resume then .ok (.load p) else .ok .fresh
  | .ok none => if force then .error .fileNotFound else .ok .fresh

/-- A given epoch must exist, even if nothing is to be resumed; a forced resume needs a checkpoint and resumes even if resuming is switched off. -/
theorem factory_spec (isFile : String → Bool) (path : Int → String) (last : Option String) (resume force : Bool) (epoch : Int) :
    (factory isFile path last resume force epoch = .error .value ↔ 0 < epoch ∧ isFile (path epoch) = false) ∧
    (factory isFile path last resume force epoch = .error .fileNotFound ↔ epoch ≤ 0 ∧ last = none ∧ force = true) ∧
    (∀ p, factory isFile path last resume force epoch = .ok (.load p) ↔ (force = true ∨ resume = true) ∧ ((0 < epoch ∧ isFile (path epoch) = true ∧ p = path epoch) ∨ (epoch ≤ 0 ∧ last = some p))) := by
  unfold factory
  by_cases he : 0 < epoch
  · cases hf : isFile (path epoch) <;> cases force <;> cases resume <;> simp [he, eq_comm]
  · have he' : epoch ≤ 0 := not_lt.mp he
    cases last <;> cases force <;> cases resume <;> simp [he, he']

section load
variable {V : Type}

/-- Parameters by name, with shapes. -/
abbrev Dict (V : Type) := String → Option (List Nat × V)

/-- What is copied by `load_state_dict`, strict or not: entries of the same name and shape. -/
def copied (m ck : Dict V) : Dict V := fun k => match m k, ck k with
  | some (s, v), some (s', v') => if s = s' then some (s, v') else some (s, v)
  | x, _ => x

/-- Whether a shape does not agree. -/
def clash (names : List String) (m ck : Dict V) : Bool := names.any (fun k => match m k, ck k with
  | some (s, _), some (s', _) => decide (s ≠ s')
  | _, _ => false)

/-- Whether names differ. -/
def differ (names : List String) (m ck : Dict V) : Bool := names.any (fun k => (m k).isSome != (ck k).isSome)

/-- Lines 122-129: strict, and if this fails not strict; `names` are the names in either. -/
def loadModel (names : List String) (m ck : Dict V) : Except Err (Dict V) :=
  if clash names m ck = false ∧ differ names m ck = false then .ok (copied m ck)
  else if clash names (copied m ck) ck then .error .runtime else .ok (copied (copied m ck) ck)

/-- Loading fails exactly if a parameter has another shape; missing and additional parameters are never an error.  Otherwise every parameter of the model that is in the checkpoint has the value of the checkpoint, every other keeps its own. -/
theorem loadModel_spec (names : List String) (m ck : Dict V) (hn : ∀ k, (m k).isSome → k ∈ names) :
    ((∃ e, loadModel names m ck = .error e) ↔ ∃ k s v s' v', m k = some (s, v) ∧ ck k = some (s', v') ∧ s ≠ s') ∧
    ∀ r, loadModel names m ck = .ok r → ∀ k, r k = match m k with | none => none | some (s, v) => some (s, ((ck k).map (·.2)).getD v) := by
  have hcl : ∀ q : Dict V, (∀ k, (q k).map (·.1) = (m k).map (·.1)) → (clash names q ck = true ↔ ∃ k s v s' v', m k = some (s, v) ∧ ck k = some (s', v') ∧ s ≠ s') := by
    intro q hq
    unfold clash
    rw [List.any_eq_true]
    constructor
    · rintro ⟨k, -, h⟩
      have hk := hq k
      split at h
      · rename_i s v s' v' h1 h2
        rw [h1] at hk
        obtain ⟨w, hw, hw'⟩ := Option.map_eq_some_iff.mp hk.symm
        exact ⟨k, w.1, w.2, s', v', hw, h2, by rw [hw']; simpa using h⟩
      · cases h
    · rintro ⟨k, s, v, s', v', h1, h2, h3⟩
      refine ⟨k, hn k (by rw [h1]; rfl), ?_⟩
      have hk := hq k
      rw [h1] at hk
      obtain ⟨w, hw, hw'⟩ := Option.map_eq_some_iff.mp hk
      rw [hw, h2]
      simp only at hw' ⊢
      rw [hw']
      simpa using h3
  have hcop : ∀ q : Dict V, ∀ k, (copied q ck k).map (·.1) = (q k).map (·.1) := by
    intro q k
    unfold copied
    cases hq : q k with
    | none => rfl
    | some w =>
      cases hc : ck k with
      | none => rfl
      | some w' =>
        simp only
        split_ifs <;> rfl
  have h1 := hcl m (fun _ => rfl)
  have h2 := hcl (copied m ck) (hcop m)
  have hval : ¬ (∃ k s v s' v', m k = some (s, v) ∧ ck k = some (s', v') ∧ s ≠ s') → ∀ k, copied m ck k = match m k with | none => none | some (s, v) => some (s, ((ck k).map (·.2)).getD v) := by
    intro hno k
    unfold copied
    cases hm : m k with
    | none => rfl
    | some w =>
      cases hc : ck k with
      | none => rfl
      | some w' =>
        have : w.1 = w'.1 := by
          by_contra hne
          exact hno ⟨k, w.1, w.2, w'.1, w'.2, hm, hc, hne⟩
        simp only [this, if_true]
        rfl
  have hval2 : ¬ (∃ k s v s' v', m k = some (s, v) ∧ ck k = some (s', v') ∧ s ≠ s') → ∀ k, copied (copied m ck) ck k = copied m ck k := by
    intro hno k
    have := hval hno k
    rw [copied, this]
    cases hm : m k with
    | none => rfl
    | some w =>
      cases hc : ck k with
      | none => rfl
      | some w' =>
        have e : w.1 = w'.1 := by
          by_contra hne
          exact hno ⟨k, w.1, w.2, w'.1, w'.2, hm, hc, hne⟩
        simp [e]
  unfold loadModel
  by_cases hno : ∃ k s v s' v', m k = some (s, v) ∧ ck k = some (s', v') ∧ s ≠ s'
  · rw [if_neg (by rw [h1.mpr hno]; simp), if_pos (h2.mpr hno)]
    exact ⟨⟨fun _ => hno, fun _ => ⟨_, rfl⟩⟩, fun r hr => by cases hr⟩
  · have c2 : ¬ clash names (copied m ck) ck = true := fun h => hno (h2.mp h)
    rw [if_neg c2]
    refine ⟨⟨?_, fun h => absurd h hno⟩, ?_⟩
    · rintro ⟨e, he⟩
      split_ifs at he
    · intro r hr k
      split_ifs at hr
      · injection hr with hr
        rw [← hr, hval hno k]
      · injection hr with hr
        rw [← hr, hval2 hno k, hval hno k]

end load

/-! ## Training of the NeRF project -/

/-- What is stored: the epochs of which the model is made, each with the exponent of its learning rate, and `stats.epoch`. -/
structure Ck where
  epochs : List (Nat × Nat)
  stat : Int
  deriving DecidableEq

/-- The main loop, `train_nerf.py:170-267` with a positive interval `c`, from epoch `e`, for `n` epochs: model, `stats.epoch`, counter of the scheduler, file. -/
def loop (c : Nat) : (n : Nat) → (e : Nat) → (w : List (Nat × Nat)) → (s : Int) → (k : Nat) → (disk : Option Ck) → Option Ck × List (Nat × Nat)
  | 0, _, w, _, _, disk => (disk, w)
  | n + 1, e, w, s, k, disk =>
    let s := s + 1
    let w := w ++ [(e, k)]
    let k := k + 1
    loop c n (e + 1) w s k (if e % c = 0 ∧ 0 < e then some ⟨w, s⟩ else disk)

/-- A run of the script that ends after `n` epochs or when all are done, `train_nerf.py:66-115`: the scheduler is made with `last_epoch = start_epoch - 1` and steps once when it is made. -/
def session (c maxEpochs : Nat) (disk : Option Ck) (n : Nat) : Option Ck × List (Nat × Nat) := match disk with
  | none => loop c (min n maxEpochs) 0 [] (-1) 0 none
  | some d => loop c (min n (maxEpochs - d.stat.toNat)) d.stat.toNat d.epochs d.stat d.stat.toNat (some d)

/-- The file after runs of these lengths. -/
def sessions (c maxEpochs : Nat) (ns : List Nat) : Option Ck := ns.foldl (fun d n => (session c maxEpochs d n).1) none

/-- Epochs with the learning rates of their numbers. -/
def ep (e n : Nat) : List (Nat × Nat) := (List.range' e n).map (fun i => (i, i))

theorem ep_append (e m n : Nat) : ep e m ++ ep (e + m) n = ep e (m + n) := by
  unfold ep
  rw [← List.map_append, List.range'_append_1]

theorem loop_spec (c n e : Nat) (w : List (Nat × Nat)) (s : Int) (disk : Option Ck) :
    (loop c n e w s e disk).2 = w ++ ep e n ∧
    (((∀ m, e ≤ m → m < e + n → ¬ (m % c = 0 ∧ 0 < m)) ∧ (loop c n e w s e disk).1 = disk) ∨
      ∃ m, e ≤ m ∧ m < e + n ∧ m % c = 0 ∧ 0 < m ∧ (∀ j, m < j → j < e + n → ¬ j % c = 0) ∧ (loop c n e w s e disk).1 = some ⟨w ++ ep e (m + 1 - e), s + ((m : Int) - e) + 1⟩) := by
  induction n generalizing e w s disk with
  | zero => exact ⟨by simp [loop, ep], Or.inl ⟨fun m h1 h2 => by omega, rfl⟩⟩
  | succ n ih =>
    simp only [loop]
    obtain ⟨h1, h2⟩ := ih (e + 1) (w ++ [(e, e)]) (s + 1) (if e % c = 0 ∧ 0 < e then some ⟨w ++ [(e, e)], s + 1⟩ else disk)
    have e1 : ∀ k, w ++ [(e, e)] ++ ep (e + 1) k = w ++ ep e (k + 1) := by
      intro k
      rw [List.append_assoc, show [(e, e)] = ep e 1 from rfl, ep_append, Nat.add_comm 1 k]
    refine ⟨by rw [h1, e1], ?_⟩
    rcases h2 with ⟨h2, h3⟩ | ⟨m, h2, h3, h4, h5, h6, h7⟩
    · rw [h3]
      by_cases hc : e % c = 0 ∧ 0 < e
      · right
        refine ⟨e, le_refl _, by omega, hc.1, hc.2, fun j hj hj' hjc => h2 j (by omega) (by omega) ⟨hjc, by omega⟩, ?_⟩
        rw [if_pos hc, show e + 1 - e = 1 by omega, sub_self, add_zero]
        rfl
      · left
        refine ⟨fun m hm hm' => ?_, by rw [if_neg hc]⟩
        rcases Nat.eq_or_lt_of_le hm with rfl | hm
        · exact hc
        · exact h2 m hm (by omega)
    · right
      refine ⟨m, by omega, by omega, h4, h5, fun j hj hj' => h6 j hj (by omega), ?_⟩
      rw [h7, e1, show m + 1 - (e + 1) + 1 = m + 1 - e by omega]
      congr 2
      push_cast
      ring

/-- Whatever runs there were: the stored model was trained on every epoch up to some epoch in order, each with the learning rate of its number, where the epoch of the first checkpoint that was resumed, and no other, was trained twice. -/
theorem sessions_spec (c maxEpochs : Nat) (ns : List Nat) (d : Ck) (h : sessions c maxEpochs ns = some d) :
    (∃ e, 0 < e ∧ e % c = 0 ∧ e < maxEpochs ∧ d = ⟨ep 0 (e + 1), e⟩) ∨ ∃ r e, 0 < r ∧ r ≤ e ∧ r % c = 0 ∧ e % c = 0 ∧ e < maxEpochs ∧ d = ⟨ep 0 (r + 1) ++ ep r (e + 1 - r), (e : Int) + 1⟩ := by
  let Good : Option Ck → Prop := fun o => ∀ d, o = some d →
    (∃ e, 0 < e ∧ e % c = 0 ∧ e < maxEpochs ∧ d = ⟨ep 0 (e + 1), e⟩) ∨ ∃ r e, 0 < r ∧ r ≤ e ∧ r % c = 0 ∧ e % c = 0 ∧ e < maxEpochs ∧ d = ⟨ep 0 (r + 1) ++ ep r (e + 1 - r), (e : Int) + 1⟩
  have step : ∀ o n, Good o → Good (session c maxEpochs o n).1 := by
    intro o n ho d hd
    cases o with
    | none =>
      simp only [session] at hd
      obtain ⟨-, h2⟩ := loop_spec c (min n maxEpochs) 0 [] (-1) none
      rcases h2 with ⟨-, h2⟩ | ⟨m, -, h3, h4, h5, -, h7⟩
      · rw [h2] at hd; cases hd
      · rw [h7] at hd
        injection hd with hd
        refine Or.inl ⟨m, h5, h4, by omega, ?_⟩
        rw [← hd, List.nil_append, Nat.sub_zero]
        congr 1
        push_cast
        ring
    | some q =>
      simp only [session] at hd
      rcases ho q rfl with ⟨e, he0, hec, hem, rfl⟩ | ⟨r, e, hr0, hre, hrc, hec, hem, rfl⟩
      · have e1 : ((e : Int)).toNat = e := by simp
        simp only [e1] at hd
        obtain ⟨-, h2⟩ := loop_spec c (min n (maxEpochs - e)) e (ep 0 (e + 1)) e (some ⟨ep 0 (e + 1), e⟩)
        rcases h2 with ⟨-, h2⟩ | ⟨m, h2, h3, h4, h5, -, h7⟩
        · rw [h2] at hd
          injection hd with hd
          exact Or.inl ⟨e, he0, hec, hem, hd.symm⟩
        · rw [h7] at hd
          injection hd with hd
          refine Or.inr ⟨e, m, he0, h2, hec, h4, by omega, ?_⟩
          rw [← hd]
          congr 1
          ring
      · have e1 : ((e : Int) + 1).toNat = e + 1 := by omega
        simp only [e1] at hd
        obtain ⟨-, h2⟩ := loop_spec c (min n (maxEpochs - (e + 1))) (e + 1) (ep 0 (r + 1) ++ ep r (e + 1 - r)) ((e : Int) + 1) (some ⟨ep 0 (r + 1) ++ ep r (e + 1 - r), (e : Int) + 1⟩)
        rcases h2 with ⟨-, h2⟩ | ⟨m, h2, h3, h4, h5, -, h7⟩
        · rw [h2] at hd
          injection hd with hd
          exact Or.inr ⟨r, e, hr0, hre, hrc, hec, hem, hd.symm⟩
        · rw [h7] at hd
          injection hd with hd
          refine Or.inr ⟨r, m, hr0, by omega, hrc, h4, by omega, ?_⟩
          rw [← hd, List.append_assoc]
          have e2 : ep r (e + 1 - r) ++ ep (e + 1) (m + 1 - (e + 1)) = ep r (m + 1 - r) := by
            have := ep_append r (e + 1 - r) (m + 1 - (e + 1))
            rw [show r + (e + 1 - r) = e + 1 by omega, show e + 1 - r + (m + 1 - (e + 1)) = m + 1 - r by omega] at this
            exact this
          rw [e2]
          congr 1
          push_cast
          ring
  have all : ∀ (ns : List Nat) (o : Option Ck), Good o → Good (ns.foldl (fun d n => (session c maxEpochs d n).1) o) := by
    intro ns
    induction ns with
    | nil => exact fun o ho => ho
    | cons n ns ih => exact fun o ho => ih _ (step o n ho)
  exact all ns none (fun d hd => by cases hd) d h

/-- The first resumed run trains the epoch of the checkpoint once more. -/
theorem resume_repeats (c maxEpochs n k : Nat) (e : Nat) (he : e < maxEpochs) (hk : 0 < k) (hn : sessions c maxEpochs [n] = some ⟨ep 0 (e + 1), e⟩) :
    ((session c maxEpochs (sessions c maxEpochs [n]) k).2).count (e, e) = 2 := by
  rw [hn]
  have e1 : ((e : Int)).toNat = e := by simp
  simp only [session, e1]
  rw [(loop_spec c _ e _ _ _).1]
  have hc : ∀ a n, a ≤ e → e < a + n → (ep a n).count (e, e) = 1 := by
    intro a n h1 h2
    unfold ep
    have hnd : ((List.range' a n).map (fun i => (i, i))).Nodup := List.Nodup.map (fun x y h => (Prod.mk.inj h).1) (List.nodup_range' (s := a) (n := n))
    refine List.count_eq_one_of_mem hnd ?_
    rw [List.mem_map]
    exact ⟨e, by rw [List.mem_range'_1]; omega, rfl⟩
  rw [List.count_append, hc 0 (e + 1) (by omega) (by omega), hc e _ (le_refl _) (by omega)]

/-- The result of training is stored only if the number of the last epoch is a multiple of the interval; otherwise the last epochs are in no file. -/
theorem last_stored (c maxEpochs : Nat) (hm : 1 < maxEpochs) :
    (∃ d, sessions c maxEpochs [maxEpochs] = some d ∧ d.epochs = (session c maxEpochs none maxEpochs).2) ↔ (maxEpochs - 1) % c = 0 := by
  have hs : sessions c maxEpochs [maxEpochs] = (session c maxEpochs none maxEpochs).1 := rfl
  rw [hs]
  simp only [session, Nat.min_self]
  obtain ⟨h1, h2⟩ := loop_spec c maxEpochs 0 [] (-1) none
  rw [h1, List.nil_append]
  have hlen : ∀ n, (ep 0 n).length = n := by intro n; simp [ep]
  rcases h2 with ⟨h2, h3⟩ | ⟨m, -, h3, h4, h5, h6, h7⟩
  · rw [h3]
    constructor
    · rintro ⟨d, hd, -⟩; cases hd
    · intro h
      exact absurd ⟨h, by omega⟩ (h2 (maxEpochs - 1) (by omega) (by omega))
  · rw [h7]
    constructor
    · rintro ⟨d, hd, he⟩
      injection hd with hd
      rw [← hd] at he
      simp only [List.nil_append, Nat.sub_zero] at he
      have := congrArg List.length he
      rw [hlen, hlen] at this
      rw [show maxEpochs - 1 = m by omega]
      exact h4
    · intro h
      refine ⟨_, rfl, ?_⟩
      have : m = maxEpochs - 1 := by
        by_contra hne
        exact h6 (maxEpochs - 1) (by omega) (by omega) h
      simp only [List.nil_append, Nat.sub_zero]
      rw [show m + 1 = maxEpochs by omega]

/-! ## Devices -/

/-- `make_device`, `datatypes.py:17-34`: kind and index. -/
def makeDevice (current : Nat) (d : String × Option Nat) : String × Option Nat := if d.1 = "cuda" ∧ d.2 = none then ("cuda", some current) else d

/-- `get_device`, `datatypes.py:37-60`. -/
def getDevice (current : Nat) (tensor device : Option (String × Option Nat)) : String × Option Nat := match device with
  | some d => makeDevice current d
  | none => match tensor with
    | some d => d
    | none => ("cpu", none)

/-- A GPU that was made explicit stays the same when the current GPU changes; what is asked for wins over where the tensor is. -/
theorem device_spec (c c' : Nat) (d : String × Option Nat) (t : Option (String × Option Nat)) :
    makeDevice c' (makeDevice c d) = makeDevice c d ∧ ((makeDevice c d).1 = "cuda" → (makeDevice c d).2 ≠ none) ∧ (makeDevice c d).1 = d.1 ∧ getDevice c t (some d) = makeDevice c d ∧
    getDevice c (some d) none = d ∧ getDevice c none none = ("cpu", none) := by
  unfold makeDevice getDevice
  obtain ⟨k, i⟩ := d
  by_cases hk : k = "cuda"
  · subst hk
    cases i <;> simp [makeDevice]
  · simp [hk, makeDevice]

example : le 4 258 = [2, 1, 0, 0] := by decide
example : int32.pk (-2) = some [254, 255, 255, 255] ∧ int32.un [254, 255, 255, 255] = -2 ∧ int32.pk (2 ^ 31) = none := by decide
example : sessions 2 6 [4, 1, 10] = some ⟨[(0, 0), (1, 1), (2, 2), (2, 2), (3, 3), (4, 4)], 5⟩ := by decide
example : factory (fun _ => false) (fun _ => "m") none false false 3 = .error .value := by decide

end P3D.Storage
