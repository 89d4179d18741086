/-
Training statistics (`implicitron/tools/stats.py`): `AverageMeter` and `Stats`.

Dictionaries are functions with a fresh meter where there is no entry.  `epoch` of the code is `ep - 1` (a new object has epoch -1).  Not modelled: `sec/it`, times,
printing, plotting, JSON, floats.
-/
import Mathlib.Algebra.Field.Rat
import Mathlib.Algebra.Order.Ring.Rat
import Mathlib.Algebra.BigOperators.Group.List.Basic
import Mathlib.Algebra.Field.Basic
import Mathlib.Tactic.Ring
import Mathlib.Tactic.FieldSimp
import Mathlib.Tactic.Linarith

set_option linter.unusedSectionVars false

namespace P3D.TrainStats

variable {K : Type} [Field K]

/-! ### The code -/

/-- `AverageMeter` (stats.py:26-38). -/
structure Meter (K : Type) where
  history : List (List K)
  val : K
  sum : K
  count : Nat
  avg : K

def Meter.new : Meter K := ⟨[], 0, 0, 0, 0⟩

/-- `reset` (lines 33-37): the history stays. -/
def Meter.reset (m : Meter K) : Meter K := { m with val := 0, avg := 0, sum := 0, count := 0 }

/-- Extends the history up to `epoch` and appends to that epoch (lines 41-44). -/
def record (h : List (List K)) (epoch : Nat) (v : K) : List (List K) :=
  let h := h ++ List.replicate (epoch + 1 - h.length) []
  h.modify epoch (· ++ [v])

/-- `update` (lines 39-48). -/
def Meter.update (m : Meter K) (v : K) (n epoch : Nat) : Meter K :=
  let sum := m.sum + v * n
  let count := m.count + n
  { history := record m.history epoch (v / n), val := v, sum := sum, count := count, avg := sum / count }

/-- The mean of the values of one epoch; `none` is NaN. -/
def mean (l : List K) : Option K := if l = [] then none else some (l.sum / l.length)

/-- `get_epoch_averages` (lines 50-59), for all epochs and for one, where `none` is an IndexError. -/
def Meter.averages (m : Meter K) : Option (List (Option K)) := if m.history.length = 0 then none else some (m.history.map mean)
def Meter.average (m : Meter K) (epoch : Nat) : Option (Option K) := m.history[epoch]?.map mean

/-- `Stats`: epoch plus one, names, and a meter for each set and name. -/
structure Stats (K : Type) where
  ep : Nat
  vars : List String
  m : String → String → Meter K
  it : String → Int

/-- `hard_reset` and `__init__` (lines 107-125, 175-181). -/
def Stats.new (vars : List String) : Stats K := ⟨0, vars, fun _ _ => Meter.new, fun _ => -1⟩

/-- `new_epoch` (lines 183-186) with `reset` (lines 167-173). -/
def Stats.newEpoch (s : Stats K) : Stats K := { s with ep := s.ep + 1, m := fun a b => (s.m a b).reset, it := fun _ => -1 }

def setMeter (m : String → String → Meter K) (a b : String) (x : Meter K) : String → String → Meter K := fun a' b' => if a' = a ∧ b' = b then x else m a' b'

/-- One name of `update` (lines 219-244). -/
def logVar (set : String) (preds : List (String × K)) (epoch : Nat) (m : String → String → Meter K) (stat : String) : String → String → Meter K :=
  match preds.lookup stat with
  | none => m
  | some v => setMeter m set stat ((m set stat).update v 1 epoch)

/-- `update` (lines 202-244). -/
def Stats.update (s : Stats K) (preds : List (String × K)) (freeze : Bool) (set : String) : Stats K :=
  let s := if s.ep = 0 then s.newEpoch else s
  { s with
    it := fun a => if a = set ∧ freeze = false then s.it a + 1 else s.it a
    m := s.vars.foldl (logVar set preds (s.ep - 1)) s.m }

/-- `add_log_vars` (lines 196-200): names are compared with those of the sets, given in `sets`. -/
def Stats.addVars (s : Stats K) (sets added : List String) : Stats K := { s with vars := added.foldl (fun vs a => if a ∈ sets then vs else vs ++ [a]) s.vars }

/-! ### One meter -/

theorem record_get (h : List (List K)) (epoch : Nat) (v : K) (e : Nat) : (record h epoch v).getD e [] = if e = epoch then h.getD e [] ++ [v] else h.getD e [] := by
  unfold record
  dsimp only
  rw [List.getD_eq_getElem?_getD, List.getElem?_modify]
  have hpad : ∀ e, ((h ++ List.replicate (epoch + 1 - h.length) ([] : List K))[e]?).getD [] = h.getD e [] := by
    intro e
    rw [List.getD_eq_getElem?_getD, List.getElem?_append]
    split_ifs with hl
    · rfl
    · rw [List.getElem?_eq_none (l := h) (by omega), List.getElem?_replicate]
      split_ifs <;> rfl
  by_cases he : e = epoch
  · subst he
    rw [if_pos rfl, ← hpad e]
    have hlt : e < (h ++ List.replicate (e + 1 - h.length) ([] : List K)).length := by
      rw [List.length_append, List.length_replicate]
      omega
    rw [List.getElem?_eq_getElem hlt]
    simp
  · rw [if_neg he, ← hpad e]
    have : ¬ epoch = e := fun h => he h.symm
    simp [this]

theorem record_length (h : List (List K)) (epoch : Nat) (v : K) : (record h epoch v).length = max h.length (epoch + 1) := by
  unfold record
  dsimp only
  rw [List.length_modify, List.length_append, List.length_replicate]
  omega

/-- After any updates since the last reset, `avg` is the mean of the values weighted by their numbers. -/
theorem meter_avg (m : Meter K) (l : List (K × Nat)) (epoch : Nat) :
    let r := l.foldl (fun m x => m.update x.1 x.2 epoch) m.reset
    r.sum = (l.map fun x => x.1 * (x.2 : K)).sum ∧ r.count = (l.map fun x => x.2).sum ∧ (l ≠ [] → r.avg = r.sum / r.count) := by
  have key : ∀ (l : List (K × Nat)) (m : Meter K), let r := l.foldl (fun m x => m.update x.1 x.2 epoch) m
      r.sum = m.sum + (l.map fun x => x.1 * (x.2 : K)).sum ∧ r.count = m.count + (l.map fun x => x.2).sum ∧ (l ≠ [] ∨ m.avg = m.sum / m.count → r.avg = r.sum / r.count) := by
    intro l
    induction l with
    | nil => intro m; simp
    | cons x l ih =>
      intro m
      obtain ⟨h1, h2, h3⟩ := ih (m.update x.1 x.2 epoch)
      rw [List.foldl_cons]
      dsimp only at *
      refine ⟨?_, ?_, ?_⟩
      · rw [h1]
        simp [Meter.update]
        ring
      · rw [h2]
        simp [Meter.update]
        omega
      · intro _
        exact h3 (Or.inr (by simp [Meter.update]))
  obtain ⟨h1, h2, h3⟩ := key l m.reset
  dsimp only at *
  refine ⟨?_, ?_, fun h => h3 (Or.inl h)⟩
  · rw [h1]
    simp [Meter.reset]
  · rw [h2]
    simp [Meter.reset]

/-- A value for `n` elements enters the average with weight `n` but the history divided by `n`, so the epoch average of a constant is not its `avg`. -/
theorem meter_inconsistent [CharZero K] (v : K) (hv : v ≠ 0) (n : Nat) (hn : 2 ≤ n) :
    (Meter.new.update v n 0).avg = v ∧ (Meter.new.update v n 0).average 0 = some (some (v / n)) ∧ v / n ≠ v := by
  have hn0 : (n : K) ≠ 0 := by exact_mod_cast (by omega : n ≠ 0)
  refine ⟨?_, ?_, ?_⟩
  · simp [Meter.update, Meter.new, hn0]
  · simp [Meter.update, Meter.new, Meter.average, record, mean]
  · intro h
    rw [div_eq_iff hn0] at h
    have h1 : v * 1 = v * n := by rw [mul_one]; exact h
    have h2 := mul_left_cancel₀ hv h1
    have : (1 : Nat) = n := by exact_mod_cast h2
    omega

/-! ### Statistics -/

inductive Op (K : Type)
  | newEpoch
  | update (set : String) (preds : List (String × K)) (freeze : Bool)

def step (s : Stats K) : Op K → Stats K
  | .newEpoch => s.newEpoch
  | .update set preds freeze => s.update preds freeze set

/-- What happened: the epoch (plus one) after the operations, and for each update its epoch, set and predictions. -/
def spec : List (Op K) → Nat × List (Nat × String × List (String × K))
  | [] => (0, [])
  | .newEpoch :: ops => ((spec ops).1 + 1, (spec ops).2)
  | .update set preds _ :: ops => (max (spec ops).1 1, (spec ops).2 ++ [(max (spec ops).1 1 - 1, set, preds)])

/-- The values of a name in an epoch, in order. -/
def values (log : List (Nat × String × List (String × K))) (e : Nat) (set stat : String) : List K :=
  (log.filter fun x => x.1 = e ∧ x.2.1 = set).filterMap fun x => x.2.2.lookup stat

/-- The operations, the last one first. -/
def run (vars : List String) : List (Op K) → Stats K
  | [] => Stats.new vars
  | op :: ops => step (run vars ops) op

theorem fold_other (set : String) (preds : List (String × K)) (epoch : Nat) (vars : List String) (m : String → String → Meter K) (a b : String) (h : a ≠ set ∨ b ∉ vars) :
    vars.foldl (logVar set preds epoch) m a b = m a b := by
  induction vars generalizing m with
  | nil => rfl
  | cons x vars ih =>
    rw [List.foldl_cons, ih _ (h.imp id fun h h' => h (List.mem_cons_of_mem _ h'))]
    unfold logVar
    cases preds.lookup x with
    | none => rfl
    | some v =>
      dsimp only
      unfold setMeter
      rw [if_neg]
      rintro ⟨rfl, rfl⟩
      rcases h with h | h
      · exact h rfl
      · exact h List.mem_cons_self

theorem fold_var (set : String) (preds : List (String × K)) (epoch : Nat) (vars : List String) (hd : vars.Nodup) (m : String → String → Meter K) (b : String) (hb : b ∈ vars) :
    vars.foldl (logVar set preds epoch) m set b = match preds.lookup b with | none => m set b | some v => (m set b).update v 1 epoch := by
  induction vars generalizing m with
  | nil => cases hb
  | cons x vars ih =>
    rw [List.foldl_cons]
    rw [List.nodup_cons] at hd
    by_cases hx : b = x
    · subst hx
      rw [fold_other _ _ _ _ _ _ _ (Or.inr hd.1)]
      unfold logVar
      cases preds.lookup b with
      | none => rfl
      | some v => simp [setMeter]
    · rw [ih hd.2 _ (by
        rcases List.mem_cons.mp hb with h | h
        · exact absurd h hx
        · exact h)]
      have : logVar set preds epoch m x set b = m set b := by
        unfold logVar
        cases preds.lookup x with
        | none => rfl
        | some v => simp [setMeter, hx]
      rw [this]

theorem run_vars (vars : List String) (ops : List (Op K)) : (run vars ops).vars = vars := by
  induction ops with
  | nil => rfl
  | cons op ops ih =>
    cases op with
    | newEpoch => exact ih
    | update set preds freeze =>
      rw [run, step, Stats.update]
      dsimp only
      split_ifs
      · exact ih
      · exact ih

theorem run_ep (vars : List String) (ops : List (Op K)) : (run vars ops).ep = (spec ops).1 := by
  induction ops with
  | nil => rfl
  | cons op ops ih =>
    cases op with
    | newEpoch =>
      rw [run, step, spec, ← ih]
      rfl
    | update set preds freeze =>
      rw [run, step, spec, Stats.update, ← ih]
      dsimp only
      split_ifs with h
      · rw [Stats.newEpoch]
        dsimp only
        omega
      · omega

theorem run_start (vars : List String) (ops : List (Op K)) (h : (run vars ops).ep = 0) : ops = [] := by
  cases ops with
  | nil => rfl
  | cons op ops =>
    rw [run_ep] at h
    cases op with
    | newEpoch => simp [spec] at h
    | update set preds freeze => simp only [spec] at h; omega

/-- The operation opens an epoch. -/
def opens : Op K → Bool
  | .newEpoch => true
  | _ => false

/-- The operation advances the iteration counter of a set. -/
def counts (set : String) : Op K → Bool
  | .update s _ freeze => decide (s = set) && !freeze
  | _ => false

/-- The iteration counter of a set is one less than the number of its updates that were not frozen since the epoch began. -/
theorem run_it (vars : List String) (ops : List (Op K)) (set : String) :
    (run vars ops).it set = ((ops.takeWhile fun o => !opens o).countP (counts set) : ℤ) - 1 := by
  induction ops with
  | nil => simp [run, Stats.new]
  | cons op ops ih =>
    cases op with
    | newEpoch => simp [run, step, Stats.newEpoch, opens]
    | update a preds freeze =>
      have hw : ((Op.update a preds freeze :: ops).takeWhile fun o => !opens o) = Op.update a preds freeze :: ops.takeWhile fun o => !opens o := by
        simp [opens]
      rw [hw, List.countP_cons]
      have hit : (run vars (Op.update a preds freeze :: ops)).it set = if set = a ∧ freeze = false then (run vars ops).it set + 1 else (run vars ops).it set := by
        rw [run, step, Stats.update]
        dsimp only
        by_cases h0 : (run vars ops).ep = 0
        · have := run_start vars ops h0
          subst this
          rfl
        · rw [if_neg h0]
      rw [hit, ih]
      have hc : counts set (Op.update a preds freeze) = decide (set = a ∧ freeze = false) := by
        cases freeze <;> simp [counts, eq_comm]
      rw [hc]
      by_cases h : set = a ∧ freeze = false
      · rw [if_pos h, if_pos (decide_eq_true h)]; push_cast; ring
      · rw [if_neg h, if_neg (by simpa using h)]; simp

example : (run (K := ℚ) ["loss"] [.update "train" [] false, .update "val" [] false, .update "train" [] true, .newEpoch, .update "train" [] false]).it "train" = 0 := by
  rw [run_it]; decide

theorem log_epoch (ops : List (Op K)) : ∀ x ∈ (spec ops).2, x.1 < (spec ops).1 := by
  induction ops with
  | nil => simp [spec]
  | cons op ops ih =>
    cases op with
    | newEpoch =>
      intro x hx
      have := ih x hx
      show x.1 < (spec ops).1 + 1
      omega
    | update set preds freeze =>
      intro x hx
      rw [spec] at hx ⊢
      dsimp only at hx ⊢
      rcases List.mem_append.mp hx with h | h
      · have := ih x h
        omega
      · rw [List.mem_singleton.mp h]
        dsimp only
        omega

theorem values_new (ops : List (Op K)) (set stat : String) : values (spec ops).2 (spec ops).1 set stat = [] := by
  unfold values
  rw [List.filterMap_eq_nil_iff]
  intro x hx
  obtain ⟨h1, h2⟩ := List.mem_filter.mp hx
  have h3 := of_decide_eq_true h2
  have := log_epoch ops x h1
  omega

theorem values_append (log : List (Nat × String × List (String × K))) (x : Nat × String × List (String × K)) (e : Nat) (set stat : String) :
    values (log ++ [x]) e set stat = values log e set stat ++ (if x.1 = e ∧ x.2.1 = set then (x.2.2.lookup stat).toList else []) := by
  unfold values
  rw [List.filter_append, List.filterMap_append]
  congr 1
  by_cases h : x.1 = e ∧ x.2.1 = set
  · rw [if_pos h, List.filter_cons_of_pos (by simpa using h)]
    cases hl : x.2.2.lookup stat <;> simp [hl]
  · rw [if_neg h, List.filter_cons_of_neg (by simpa using h)]
    rfl

/-- After any operations, for every name logged: the history of each epoch holds the values given in that epoch for that set, in order, and sum, count and average are those of
the current epoch. -/
theorem run_spec (vars : List String) (hd : vars.Nodup) (ops : List (Op K)) (set stat : String) (hs : stat ∈ vars) :
    let m := (run vars ops).m set stat
    let cur := values (spec ops).2 ((spec ops).1 - 1) set stat
    (∀ e, m.history.getD e [] = values (spec ops).2 e set stat) ∧
      ((spec ops).1 ≠ 0 → m.sum = cur.sum ∧ m.count = cur.length ∧ (cur ≠ [] → m.avg = cur.sum / cur.length)) ∧ ((spec ops).1 = 0 → m = Meter.new) := by
  induction ops with
  | nil => exact ⟨fun e => by simp [run, Stats.new, Meter.new, spec, values], fun h => absurd rfl h, fun _ => rfl⟩
  | cons op ops ih =>
    obtain ⟨ih1, ih2, ih3⟩ := ih
    cases op with
    | newEpoch =>
      rw [run, step]
      refine ⟨fun e => ih1 e, fun _ => ?_, fun h => by simp [spec] at h⟩
      have hv : values (spec (.newEpoch :: ops)).2 ((spec (.newEpoch :: ops)).1 - 1) set stat = [] := values_new ops set stat
      rw [hv]
      exact ⟨rfl, rfl, fun h => absurd rfl h⟩
    | update a preds freeze =>
      have hv : (run vars ops).vars = vars := run_vars vars ops
      have he : (run vars ops).ep = (spec ops).1 := run_ep vars ops
      -- the state after the possible first epoch
      obtain ⟨s', hs', hm1, hm2, hm3, hm4⟩ : ∃ s' : Stats K, (if (run vars ops).ep = 0 then (run vars ops).newEpoch else run vars ops) = s' ∧ s'.vars = vars ∧
          s'.ep = max (spec ops).1 1 ∧ (∀ e, (s'.m set stat).history.getD e [] = values (spec ops).2 e set stat) ∧
          ((s'.m set stat).sum = (values (spec ops).2 (max (spec ops).1 1 - 1) set stat).sum ∧
            (s'.m set stat).count = (values (spec ops).2 (max (spec ops).1 1 - 1) set stat).length ∧
            (values (spec ops).2 (max (spec ops).1 1 - 1) set stat ≠ [] → (s'.m set stat).avg =
              (values (spec ops).2 (max (spec ops).1 1 - 1) set stat).sum / (values (spec ops).2 (max (spec ops).1 1 - 1) set stat).length)) := by
        refine ⟨_, rfl, ?_⟩
        by_cases h0 : (spec ops).1 = 0
        · rw [if_pos (by rw [he]; exact h0)]
          have hvn := values_new ops set stat
          rw [h0] at hvn
          refine ⟨hv, ?_, fun e => ih1 e, ?_⟩
          · rw [Stats.newEpoch]
            dsimp only
            omega
          · rw [h0]
            simp only [show max 0 1 - 1 = 0 by omega, hvn]
            exact ⟨rfl, rfl, fun h => absurd rfl h⟩
        · rw [if_neg (by rw [he]; exact h0)]
          rw [show max (spec ops).1 1 = (spec ops).1 by omega]
          exact ⟨hv, he, ih1, ih2 h0⟩
      have hrun : (run vars (.update a preds freeze :: ops)).m = vars.foldl (logVar a preds (max (spec ops).1 1 - 1)) s'.m := by
        rw [run, step, Stats.update]
        dsimp only
        rw [hs', hm1, hm2]
      rw [hrun, spec]
      dsimp only
      generalize max (spec ops).1 1 - 1 = E at *
      have hsp : max (spec ops).1 1 ≠ 0 := by omega
      by_cases hset : set = a
      · subst hset
        rw [fold_var _ _ _ _ hd _ _ hs]
        cases hl : preds.lookup stat with
        | none =>
          have hva : ∀ e, values ((spec ops).2 ++ [(E, set, preds)]) e set stat = values (spec ops).2 e set stat := by
            intro e
            rw [values_append]
            dsimp only
            rw [hl]
            split_ifs <;> simp
          simp only [hva]
          exact ⟨hm3, fun _ => hm4, fun h => absurd h hsp⟩
        | some v =>
          dsimp only
          have hva : ∀ e, values ((spec ops).2 ++ [(E, set, preds)]) e set stat = values (spec ops).2 e set stat ++ if E = e then [v] else [] := by
            intro e
            rw [values_append]
            dsimp only
            rw [hl]
            by_cases h : E = e
            · simp [h]
            · simp [h]
          refine ⟨?_, fun _ => ?_, fun h => absurd h hsp⟩
          · intro e
            rw [hva]
            simp only [Meter.update, Nat.cast_one, div_one]
            rw [record_get, hm3 e]
            by_cases h : e = E
            · rw [if_pos h, if_pos h.symm]
            · rw [if_neg h, if_neg fun h' => h h'.symm, List.append_nil]
          · rw [hva, if_pos rfl]
            obtain ⟨g1, g2, -⟩ := hm4
            simp only [Meter.update, Nat.cast_one, mul_one, List.sum_append, List.sum_singleton, List.length_append, List.length_singleton, g1, g2]
            exact ⟨trivial, trivial, fun _ => trivial⟩
      · rw [fold_other _ _ _ _ _ _ _ (Or.inl hset)]
        have hva : ∀ e, values ((spec ops).2 ++ [(E, a, preds)]) e set stat = values (spec ops).2 e set stat := by
          intro e
          rw [values_append, if_neg (fun h => hset h.2.symm), List.append_nil]
        simp only [hva]
        exact ⟨hm3, fun _ => hm4, fun h => absurd h hsp⟩

/-- Adding a name that is already logged adds it again. -/
theorem addVars_twice (s : Stats K) (sets : List String) (a : String) (ha : a ∉ sets) : ((s.addVars sets [a]).addVars sets [a]).vars = s.vars ++ [a, a] := by
  simp [Stats.addVars, ha]

/-- With a name logged twice every value counts twice. -/
theorem twice_counts (a set : String) (v : K) : (((Stats.new [a, a] : Stats K).update [(a, v)] false set).m set a).count = 2 := by
  simp [Stats.update, Stats.new, Stats.newEpoch, logVar, setMeter, Meter.update, Meter.reset, Meter.new]

/-! ### Examples -/

/-- Two epochs (operations last first): 1 and 3, then 5. -/
example : (((run ["loss"] [.update "train" [("loss", (5 : ℚ))] false, .newEpoch, .update "train" [("loss", 3)] false, .update "train" [("loss", 1)] false]).m "train" "loss").history,
    ((run ["loss"] [.update "train" [("loss", (5 : ℚ))] false, .newEpoch, .update "train" [("loss", 3)] false, .update "train" [("loss", 1)] false]).m "train" "loss").avg) =
    ([[1, 3], [5]], 5) := by decide +kernel

example : ((Meter.new.update (4 : ℚ) 2 1).history, (Meter.new.update (4 : ℚ) 2 1).avg) = ([[], [2]], 4) := by decide +kernel

end P3D.TrainStats
