/-
Optimizers of the trainer (`projects/implicitron_trainer/impl/optimizer_factory.py`) and its checkpoints (`training_loop.py`).

A module is its `param_groups`, its own parameters and its children; parameters are numbers.
Of torch the learning-rate schedulers are modelled: `LambdaLR` sets the initial rate times a function of the epoch, `MultiStepLR` multiplies the current rate; a scheduler takes one step when it is made; loading an optimizer sets its rates.
Not modelled: the optimizers, gradients, models with their own `_get_param_groups`, devices.
-/
import Verif.Checkpoints
import Mathlib.Analysis.SpecialFunctions.Pow.Real

set_option linter.unusedSectionVars false

namespace P3D.OptFactory
open P3D.Text P3D.Checkpoints

inductive Err
  | value
  | notFound
  deriving DecidableEq, Repr

/-! ### Parameter groups -/

structure Param where
  name : Str
  trainable : Bool
  id : Nat
  deriving DecidableEq, Repr

/-- A module: `param_groups` (empty if it has none), own parameters, children. -/
inductive Mod
  | mk (groups : List (Str × Str)) (params : List Param) (children : List (Str × Mod))

def look (g : List (Str × Str)) (n : Str) : Option Str := (g.find? fun p => p.1 = n).map Prod.snd

def dot : Str := ".".toList
def self : Str := "self".toList
def dflt : Str := "default".toList

/-- `mapping.update(module.param_groups)` (optimizer_factory.py:293-294). -/
def upd (m : Str → Option Str) (g : List (Str × Str)) : Str → Option Str := fun n => (look g n).or (m n)

mutual
/-- `traverse` (lines 272-313): the parameters with their groups in the order they are added. -/
def traverse : Mod → Str → (Str → Option Str) → List (Str × Nat)
  | .mk g ps cs, d, m =>
    let d := (look g self).getD d
    let m := upd m g
    ((ps.filter fun p => p.trainable).map fun p => ((m p.name).getD d, p.id)) ++ traverseAll cs d m
/-- The loop over the children (lines 305-313). -/
def traverseAll : List (Str × Mod) → Str → (Str → Option Str) → List (Str × Nat)
  | [], _, _ => []
  | (c, x) :: cs, d, m => traverse x ((m c).getD d) (fun n => m (c ++ dot ++ n)) ++ traverseAll cs d m
end

/-- `_get_param_groups` (lines 240-315). -/
def paramGroups (x : Mod) : List (Str × Nat) := traverse x dflt fun _ => none

variable {K : Type}

/-- `_get_group_learning_rate` (lines 317-332). -/
def groupRate (lr : K) (rates : List (Str × K)) (g : Str) : Except Err K :=
  if g = dflt then .ok lr
  else
    match rates.find? fun p => p.1 = g with
    | none => .error .value
    | some p => .ok p.2

/-! ### Checkpoints -/

/-- `_get_optimizer_state` (lines 195-238): the file loaded; `names` are the files of the directory. -/
def optState (names : List Str) (resume : Bool) (resumeEpoch : Int) : Except Err (Option Str) :=
  if !resume then .ok none
  else if 0 < resumeEpoch then
    if ckpt resumeEpoch.toNat ∈ names then
      if optPath (ckpt resumeEpoch.toNat) ∈ names then .ok (some (optPath (ckpt resumeEpoch.toNat))) else .error .notFound
    else .error .notFound
  else
    match findLast names false with
    | none => .ok none
    | some f => if optPath f ∈ names then .ok (some (optPath f)) else .error .notFound

/-- `_checkpoint` of the training loop (training_loop.py:429-456): the epochs with files. -/
def store (p : Int) (kept : List Nat) (e : Nat) : List Nat :=
  (if 0 < p then kept.filter fun (q : Nat) => decide (¬ (q : Int) < e - p) else kept).filter (fun q => decide (q ≠ e)) ++ [e]

/-- Training from epoch 0 on. -/
def train (p : Int) : Nat → List Nat
  | 0 => []
  | n + 1 => store p (train p n) n

/-! ### Learning rates -/

/-- The factor of the "Exponential" policy (lines 163-169). -/
noncomputable def expFactor (gamma step : ℝ) (e : Nat) : ℝ := gamma ^ ((e : ℝ) / step)

/-- The factor of the "LinearExponential" policy (lines 174-183). -/
noncomputable def linExp (gamma start step : ℝ) (m e : Nat) : ℝ :=
  if e < m then
    ((m : ℝ) - e) / m * start + (1 - ((m : ℝ) - e) / m)
  else gamma ^ (((e - m : Nat) : ℝ) / step)

/-- The rates kept in an optimizer: the initial and the current one. -/
structure Rate where
  initial : ℝ
  cur : ℝ

/-- A step of `LambdaLR` to an epoch. -/
noncomputable def lambdaStep (f : Nat → ℝ) (e : Nat) (r : Rate) : Rate := ⟨r.initial, r.initial * f e⟩

/-- A new `LambdaLR`, which steps to epoch 0, and `n` further steps (lines 163-193, torch). -/
noncomputable def lambdaRun (f : Nat → ℝ) (r : Rate) : Nat → Rate
  | 0 => lambdaStep f 0 r
  | n + 1 => lambdaStep f (n + 1) (lambdaRun f r n)

/-- A step of `MultiStepLR` to an epoch. -/
noncomputable def multiStep (ms : List Nat) (gamma : ℝ) (e : Nat) (r : Rate) : Rate := ⟨r.initial, r.cur * gamma ^ ms.count e⟩

/-- A new `MultiStepLR`, which steps to epoch 0, and `n` further steps. -/
noncomputable def multiRun (ms : List Nat) (gamma : ℝ) (r : Rate) : Nat → Rate
  | 0 => multiStep ms gamma 0 r
  | n + 1 => multiStep ms gamma (n + 1) (multiRun ms gamma r n)

/-! ### Theorems: groups -/

/-- A parameter with the modules around it, the innermost first: `param_groups` and the name of the child taken. -/
structure Place where
  own : List (Str × Str)
  above : List (List (Str × Str) × Str)
  param : Param

/-- The group named for something inside: by its own module, else by the module around it under its dotted name, and so on outwards. -/
def named (n : Str) (own : List (Str × Str)) : List (List (Str × Str) × Str) → Option Str
  | [] => look own n
  | (g, c) :: above => (look own n).or (named (c ++ dot ++ n) g above)

/-- The group of a module: its "self", else the group named for it, else that of the module around it. -/
def groupOf (own : List (Str × Str)) : List (List (Str × Str) × Str) → Str
  | [] => (look own self).getD dflt
  | (g, c) :: above => (look own self).getD ((named c g above).getD (groupOf g above))

/-- The group of a parameter. -/
def Place.group (q : Place) : Str := (named q.param.name q.own q.above).getD (groupOf q.own q.above)

mutual
/-- All parameters with their places, depth first. -/
def places (above : List (List (Str × Str) × Str)) : Mod → List Place
  | .mk g ps cs => ps.map (fun p => ⟨g, above, p⟩) ++ placesAll g above cs
def placesAll (g : List (Str × Str)) (above : List (List (Str × Str) × Str)) : List (Str × Mod) → List Place
  | [] => []
  | (c, x) :: cs => places ((g, c) :: above) x ++ placesAll g above cs
end

/-- What the modules around say of a name inside. -/
def inherited (n : Str) : List (List (Str × Str) × Str) → Option Str
  | [] => none
  | (g, c) :: above => named (c ++ dot ++ n) g above

def inheritedGroup : List (List (Str × Str) × Str) → Str
  | [] => dflt
  | (g, c) :: above => (named c g above).getD (groupOf g above)

theorem named_eq (n : Str) (own : List (Str × Str)) (above : List (List (Str × Str) × Str)) : named n own above = (look own n).or (inherited n above) := by
  cases above with
  | nil => unfold named inherited; rw [Option.or_none]
  | cons a above => rfl

theorem groupOf_eq (own : List (Str × Str)) (above : List (List (Str × Str) × Str)) : groupOf own above = (look own self).getD (inheritedGroup above) := by
  cases above with
  | nil => rfl
  | cons a above => rfl

mutual
theorem traverse_spec : ∀ (x : Mod) (above : List (List (Str × Str) × Str)),
    traverse x (inheritedGroup above) (fun n => inherited n above) = ((places above x).filter fun q => q.param.trainable).map fun q => (q.group, q.param.id)
  | .mk g ps cs, above => by
    unfold traverse places
    dsimp only
    rw [List.filter_append, List.map_append]
    have hm : upd (fun n => inherited n above) g = fun n => named n g above := by
      funext n
      rw [named_eq]
      rfl
    rw [hm, ← groupOf_eq]
    congr 1
    · rw [List.filter_map, List.map_map]
      rfl
    · exact traverseAll_spec cs g above
theorem traverseAll_spec : ∀ (cs : List (Str × Mod)) (g : List (Str × Str)) (above : List (List (Str × Str) × Str)),
    traverseAll cs (groupOf g above) (fun n => named n g above)
      = ((placesAll g above cs).filter fun q => q.param.trainable).map fun q => (q.group, q.param.id)
  | [], g, above => by
    unfold traverseAll placesAll
    rfl
  | (c, x) :: cs, g, above => by
    unfold traverseAll placesAll
    rw [List.filter_append, List.map_append, ← traverseAll_spec cs g above, ← traverse_spec x ((g, c) :: above)]
    rfl
end

/-- Each trainable parameter is put into the group documented for its place, in order; no other parameter is. -/
theorem paramGroups_spec (x : Mod) : paramGroups x = ((places [] x).filter fun q => q.param.trainable).map fun q => (q.group, q.param.id) :=
  traverse_spec x []

/-- No parameter is lost or doubled by the groups. -/
theorem paramGroups_all (x : Mod) : (paramGroups x).map Prod.snd = ((places [] x).filter fun q => q.param.trainable).map fun q => q.param.id := by
  rw [paramGroups_spec, List.map_map]
  rfl

/-- A module's own word for its parameter counts before those of the modules around it. -/
theorem own_first {q : Place} {g : Str} (h : look q.own q.param.name = some g) : q.group = g := by
  unfold Place.group
  rw [named_eq, h]
  rfl

/-- Without any groups everything is in the default group. -/
theorem no_groups {q : Place} (h : q.own = []) (ha : ∀ a ∈ q.above, a.1 = []) : q.group = "default".toList := by
  have hn : ∀ (above : List (List (Str × Str) × Str)) (n : Str), (∀ a ∈ above, a.1 = []) → named n [] above = none := by
    intro above
    induction above with
    | nil => intro n _; rfl
    | cons a above ih =>
      intro n h
      rw [named_eq]
      show (none : Option Str).or (named (a.2 ++ dot ++ n) a.1 above) = none
      rw [h a List.mem_cons_self, ih _ fun b hb => h b (List.mem_cons_of_mem _ hb)]
      rfl
  have hg : ∀ (above : List (List (Str × Str) × Str)), (∀ a ∈ above, a.1 = []) → groupOf [] above = dflt := by
    intro above
    induction above with
    | nil => intro _; rfl
    | cons a above ih =>
      intro h
      show (none : Option Str).getD ((named a.2 a.1 above).getD (groupOf a.1 above)) = dflt
      rw [h a List.mem_cons_self, hn above _ fun b hb => h b (List.mem_cons_of_mem _ hb), ih fun b hb => h b (List.mem_cons_of_mem _ hb)]
      rfl
  unfold Place.group
  rw [h, hn _ _ ha, hg _ ha]
  rfl

example : paramGroups (.mk [("a".toList, "g".toList), ("b.w".toList, "h".toList)] [⟨"v".toList, true, 0⟩]
    [("a".toList, .mk [] [⟨"w".toList, true, 1⟩, ⟨"x".toList, false, 2⟩] []), ("b".toList, .mk [("self".toList, "s".toList)] [⟨"w".toList, true, 3⟩, ⟨"u".toList, true, 4⟩] [])])
    = [("default".toList, 0), ("g".toList, 1), ("h".toList, 3), ("s".toList, 4)] := by decide +kernel

/-- "child.self" is documented to act as "self" of the child; it has no effect. -/
theorem child_self : paramGroups (.mk [("c.self".toList, "g".toList)] [] [("c".toList, .mk [] [⟨"w".toList, true, 0⟩] [])])
      = [("default".toList, 0)]
    ∧ paramGroups (.mk [] [] [("c".toList, .mk [("self".toList, "g".toList)] [⟨"w".toList, true, 0⟩] [])]) = [("g".toList, 0)] := by
  constructor <;> decide +kernel

/-- A parameter shared by two modules is listed twice. -/
theorem shared_twice : paramGroups (.mk [] [] [("a".toList, .mk [] [⟨"w".toList, true, 7⟩] []), ("b".toList, .mk [("w".toList, "g".toList)] [⟨"w".toList, true, 7⟩] [])])
    = [("default".toList, 7), ("g".toList, 7)] := by decide +kernel

theorem groupRate_spec (lr : K) (rates : List (Str × K)) (g : Str) :
    groupRate lr rates "default".toList = .ok lr
      ∧ (g ≠ "default".toList → (∀ p ∈ rates, p.1 ≠ g) → groupRate lr rates g = .error .value)
      ∧ ∀ r, groupRate lr rates g = .ok r → g = "default".toList ∧ r = lr ∨ (g, r) ∈ rates := by
  refine ⟨rfl, fun h1 h2 => ?_, fun r h => ?_⟩
  · unfold groupRate
    rw [if_neg (show ¬ g = dflt from h1)]
    have : (rates.find? fun p => p.1 = g) = none := by
      rw [List.find?_eq_none]
      intro p hp h
      exact h2 p hp (by simpa using h)
    rw [this]
  · unfold groupRate at h
    split_ifs at h with h1
    · cases Except.ok.inj h
      exact Or.inl ⟨h1, rfl⟩
    · cases hf : rates.find? fun p => p.1 = g with
      | none => rw [hf] at h; cases h
      | some p =>
        rw [hf] at h
        dsimp only at h
        cases Except.ok.inj h
        have h2 := List.find?_some hf
        simp only [decide_eq_true_eq] at h2
        refine Or.inr ?_
        rw [← h2]
        exact List.mem_of_find?_eq_some hf

/-! ### Theorems: checkpoints -/

/-- Resuming from the latest checkpoint takes the optimizer file of the largest epoch; without this file it fails, although documented to start anew. -/
theorem optState_last (names : List Str) (e : Int) (he : e ≤ 0) :
    ((∀ n, n < 10 ^ 8 → ckpt n ∉ names) → optState names true e = .ok none)
      ∧ ∀ n, n < 10 ^ 8 → ckpt n ∈ names → (∀ n', n' < 10 ^ 8 → ckpt n' ∈ names → n' ≤ n) →
          optState names true e = if optPath (ckpt n) ∈ names then .ok (some (optPath (ckpt n))) else .error .notFound := by
  have h0 : ¬ 0 < e := by omega
  refine ⟨fun h => ?_, fun n hn hm hmax => ?_⟩
  · unfold optState
    rw [(findLast_spec names).2.2 h]
    simp [h0]
  · have hne : findLast names false ≠ none := fun h => (findLast_spec names).2.1 h n hn hm
    obtain ⟨f, hf⟩ := Option.ne_none_iff_exists'.1 hne
    obtain ⟨n', hn', rfl, hm', hmax'⟩ := (findLast_spec names).1 f hf
    have : n' = n := le_antisymm (hmax n' hn' hm') (hmax' n hn hm)
    subst this
    unfold optState
    rw [hf]
    simp [h0]

theorem optState_epoch (names : List Str) (n : Nat) (hn : 0 < n) :
    optState names true n = if ckpt n ∈ names ∧ optPath (ckpt n) ∈ names then .ok (some (optPath (ckpt n))) else .error .notFound := by
  unfold optState
  have h : (0 : Int) < n := by omega
  rw [Int.toNat_natCast]
  simp only [Bool.not_true, Bool.false_eq_true, if_false, h, if_true]
  by_cases h1 : ckpt n ∈ names <;> by_cases h2 : optPath (ckpt n) ∈ names <;> simp [h1, h2]

/-- After training for `n` epochs exactly the last `p + 1` checkpoints are kept. -/
theorem train_keeps (p : Nat) (hp : 0 < p) : ∀ n q, q ∈ train p n ↔ q < n ∧ n ≤ q + p + 1
  | 0, q => by simp [train]
  | n + 1, q => by
    have h0 : (0 : Int) < p := by omega
    unfold train store
    rw [if_pos h0, List.mem_append, List.mem_filter, List.mem_filter, train_keeps p hp n q]
    simp only [decide_eq_true_eq, List.mem_singleton]
    omega

/-- With zero nothing is ever removed. -/
theorem train_zero : ∀ n q, q ∈ train 0 n ↔ q < n
  | 0, q => by simp [train]
  | n + 1, q => by
    unfold train store
    rw [if_neg (by simp), List.mem_append, List.mem_filter, train_zero n q]
    simp only [decide_eq_true_eq, List.mem_singleton]
    omega

example : train 1 5 = [3, 4] := by decide

/-! ### Theorems: learning rates -/

theorem expFactor_spec (gamma step : ℝ) (hg : 0 < gamma) (e : Nat) (k : Nat) (hs : step = k) (hk : 0 < k) :
    expFactor gamma step 0 = 1 ∧ expFactor gamma step (e + k) = gamma * expFactor gamma step e := by
  subst hs
  have hk' : (k : ℝ) ≠ 0 := by positivity
  refine ⟨by simp [expFactor], ?_⟩
  unfold expFactor
  rw [Nat.cast_add, add_div, div_self hk', Real.rpow_add hg, Real.rpow_one, mul_comm]

/-- The linear part goes in equal steps from the start factor to one, where the exponential part begins. -/
theorem linExp_spec (gamma start step : ℝ) (m : Nat) (hm : 0 < m) :
    linExp gamma start step m 0 = start ∧ linExp gamma start step m m = 1
      ∧ (∀ e, e < m → linExp gamma start step m (e + 1) - linExp gamma start step m e = (1 - start) / m)
      ∧ ∀ e, m ≤ e → linExp gamma start step m e = expFactor gamma step (e - m) := by
  have hm' : (m : ℝ) ≠ 0 := by positivity
  have hone : linExp gamma start step m m = 1 := by simp [linExp]
  refine ⟨by simp [linExp, hm, hm'], hone, fun e he => ?_, fun e he => ?_⟩
  · by_cases h1 : e + 1 < m
    · unfold linExp
      rw [if_pos h1, if_pos he]
      push_cast
      field_simp
      ring
    · have : e + 1 = m := by omega
      rw [this, hone]
      unfold linExp
      rw [if_pos he]
      have : (m : ℝ) = e + 1 := by rw [← this]; push_cast; rfl
      have h2 : (e : ℝ) + 1 ≠ 0 := by positivity
      rw [this]
      field_simp
      ring
  · unfold linExp expFactor
    rw [if_neg (by omega)]

/-- The factor stays positive and at most one. -/
theorem linExp_unit (gamma start step : ℝ) (m e : Nat) (hg : 0 < gamma) (hg1 : gamma ≤ 1) (hs : 0 < start) (hs1 : start ≤ 1) (hst : 0 < step) :
    0 < linExp gamma start step m e ∧ linExp gamma start step m e ≤ 1 := by
  unfold linExp
  split_ifs with h
  · have hm : (0 : ℝ) < m := by
      have : 0 < m := by omega
      positivity
    have he : (e : ℝ) < m := by exact_mod_cast h
    have hw0 : 0 < ((m : ℝ) - e) / m := div_pos (by linarith) hm
    have hw1 : ((m : ℝ) - e) / m ≤ 1 := by
      rw [div_le_one hm]
      have : (0 : ℝ) ≤ e := by positivity
      linarith
    constructor <;> nlinarith
  · exact ⟨Real.rpow_pos_of_pos hg _, Real.rpow_le_one hg.le hg1 (by positivity)⟩

/-- The milestones up to an epoch, with their repetitions. -/
def passed (ms : List Nat) (e : Nat) : Nat := (ms.filter fun m => decide (m ≤ e)).length

theorem passed_succ (ms : List Nat) (e : Nat) : passed ms (e + 1) = passed ms e + ms.count (e + 1) := by
  unfold passed
  induction ms with
  | nil => rfl
  | cons m ms ih =>
    rw [List.filter_cons, List.filter_cons, List.count_cons]
    by_cases h1 : m ≤ e
    · have h2 : m ≤ e + 1 := by omega
      have h3 : ¬ m = e + 1 := by omega
      simp only [h1, h2, decide_true, if_true, List.length_cons, beq_iff_eq, h3, if_false]
      omega
    · by_cases h2 : m = e + 1
      · subst h2
        simp only [h1, le_refl, decide_true, decide_false, if_true, Bool.false_eq_true, if_false, List.length_cons, beq_iff_eq]
        omega
      · have h3 : ¬ m ≤ e + 1 := by omega
        simp only [h1, h3, decide_false, Bool.false_eq_true, if_false, beq_iff_eq, h2]
        omega

theorem passed_zero (ms : List Nat) : passed ms 0 = ms.count 0 := by
  unfold passed
  rw [List.count_eq_length_filter]
  congr 1
  refine List.filter_congr fun m _ => ?_
  by_cases h : m = 0 <;> simp [h]

/-- The rate of a fresh run: the initial rate times gamma for each milestone passed. -/
theorem multi_fresh (ms : List Nat) (gamma : ℝ) (r : Rate) : ∀ n, (multiRun ms gamma r n).cur = r.cur * gamma ^ passed ms n
  | 0 => by
    rw [passed_zero]
    rfl
  | n + 1 => by
    unfold multiRun multiStep
    dsimp only
    rw [multi_fresh ms gamma r n, passed_succ, pow_add]
    ring

/-- Resuming a `MultiStepLR` run saved at epoch `e`: the rate loaded has passed its milestones and passes them again. -/
theorem multi_resume (ms : List Nat) (gamma lr : ℝ) (e : Nat) :
    (multiRun ms gamma ⟨lr, (multiRun ms gamma ⟨lr, lr⟩ e).cur⟩ (e + 1)).cur
      = (multiRun ms gamma ⟨lr, lr⟩ (e + 1)).cur * gamma ^ passed ms e := by
  rw [multi_fresh, multi_fresh, multi_fresh]
  ring

/-- So the rate after resuming is right exactly if no milestone has been passed (or the factor is one). -/
theorem multi_resume_iff (ms : List Nat) (gamma lr : ℝ) (hlr : lr ≠ 0) (hg : 0 < gamma) (e : Nat) :
    (multiRun ms gamma ⟨lr, (multiRun ms gamma ⟨lr, lr⟩ e).cur⟩ (e + 1)).cur = (multiRun ms gamma ⟨lr, lr⟩ (e + 1)).cur
      ↔ passed ms e = 0 ∨ gamma = 1 := by
  rw [multi_resume, multi_fresh]
  have h0 : lr * gamma ^ passed ms (e + 1) ≠ 0 := mul_ne_zero hlr (pow_ne_zero _ hg.ne')
  constructor
  · intro h
    have h1 : gamma ^ passed ms e = 1 := by
      have : lr * gamma ^ passed ms (e + 1) * gamma ^ passed ms e = lr * gamma ^ passed ms (e + 1) * 1 := by rw [mul_one]; exact h
      exact mul_left_cancel₀ h0 this
    rcases Nat.eq_zero_or_pos (passed ms e) with hz | hp
    · exact Or.inl hz
    · exact Or.inr ((pow_eq_one_iff_of_nonneg hg.le hp.ne').1 h1)
  · rintro (h | h)
    · rw [h, pow_zero, mul_one]
    · rw [h, one_pow, one_pow, mul_one]

example : passed [10, 20] 15 = 1 := by decide

theorem lambda_fresh (f : Nat → ℝ) (r : Rate) : ∀ n, (lambdaRun f r n).initial = r.initial ∧ (lambdaRun f r n).cur = r.initial * f n
  | 0 => ⟨rfl, rfl⟩
  | n + 1 => by
    obtain ⟨h, _⟩ := lambda_fresh f r n
    refine ⟨h, ?_⟩
    show (lambdaRun f r n).initial * f (n + 1) = _
    rw [h]

/-- Resuming the other policies gives the rate of the epoch whatever rate was loaded. -/
theorem lambda_resume (f : Nat → ℝ) (lr : ℝ) (e : Nat) :
    (lambdaRun f ⟨lr, (lambdaRun f ⟨lr, lr⟩ e).cur⟩ (e + 1)).cur = (lambdaRun f ⟨lr, lr⟩ (e + 1)).cur := by
  rw [(lambda_fresh f ⟨lr, (lambdaRun f ⟨lr, lr⟩ e).cur⟩ (e + 1)).2, (lambda_fresh f ⟨lr, lr⟩ (e + 1)).2]

end P3D.OptFactory
