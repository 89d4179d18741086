/-
The unsynchronised lanes of `WarpReduceMin` (`csrc/utils/warp_reduce.cuh:28-82`).

In each of its six steps lane `tid` (0 to 31) compares slot `tid` with slot `tid + s` and copies index and distance from there, while lane `tid + s` may be overwriting this very slot: the
lanes wait for each other only at the `__syncwarp()` after the step.  PointMesh models a step as if all lanes read before any writes.  Here a step is any interleaving of the single reads and writes
of the lanes, and the result in slot 0 is proved to be the same.

Memory accesses are atomic and happen in program order within a lane.  The steps in shared memory before (point_mesh_cuda.cu:115-124) have no such accesses: lanes below `s` write, slots from `s` on are read.
-/
import Mathlib.Order.Basic
import Mathlib.Order.MinMax
import Mathlib.Logic.Function.Basic
import Mathlib.Logic.Relation
import Mathlib.Algebra.Order.Ring.Rat
import Verif.PointMesh

set_option linter.unusedSectionVars false

namespace P3D.WarpRace
open P3D.PointMesh

variable {K : Type} [Field K] [LinearOrder K] [IsStrictOrderedRing K]

/-! ### The code -/

/-- Where a lane is in a step (warp_reduce.cuh:30-33): before the comparison; in the branch; with the index read; with the index written; with the distance read; at the barrier. -/
inductive Pc (K : Type)
  | start
  | branch
  | gotX (v : Nat)
  | wroteX
  | gotD (w : K)
  | done

/-- Shared memory (distances, indices) and the lanes. -/
structure Sh (K : Type) where
  d : Nat → K
  x : Nat → Nat
  pc : Nat → Pc K

/-- One access of one of the 32 lanes. -/
inductive Move (s : Nat) : Sh K → Sh K → Prop
  | skip (σ : Sh K) (j : Nat) (hj : j < 32) (hp : σ.pc j = .start) (hc : ¬ σ.d j > σ.d (j + s)) :
      Move s σ { σ with pc := Function.update σ.pc j .done }
  | enter (σ : Sh K) (j : Nat) (hj : j < 32) (hp : σ.pc j = .start) (hc : σ.d j > σ.d (j + s)) :
      Move s σ { σ with pc := Function.update σ.pc j .branch }
  | readX (σ : Sh K) (j : Nat) (hj : j < 32) (hp : σ.pc j = .branch) :
      Move s σ { σ with pc := Function.update σ.pc j (.gotX (σ.x (j + s))) }
  | writeX (σ : Sh K) (j : Nat) (v : Nat) (hj : j < 32) (hp : σ.pc j = .gotX v) :
      Move s σ { σ with x := Function.update σ.x j v, pc := Function.update σ.pc j .wroteX }
  | readD (σ : Sh K) (j : Nat) (hj : j < 32) (hp : σ.pc j = .wroteX) :
      Move s σ { σ with pc := Function.update σ.pc j (.gotD (σ.d (j + s))) }
  | writeD (σ : Sh K) (j : Nat) (w : K) (hj : j < 32) (hp : σ.pc j = .gotD w) :
      Move s σ { σ with d := Function.update σ.d j w, pc := Function.update σ.pc j .done }

/-- A step with stride `s`: all lanes start, accesses happen in any order, all lanes reach the barrier. -/
def RacyStep (s : Nat) (m m' : Nat → K × Nat) : Prop :=
  ∃ σ : Sh K, Relation.ReflTransGen (Move s) ⟨fun j => (m j).1, fun j => (m j).2, fun _ => .start⟩ σ ∧ (∀ j < 32, σ.pc j = .done) ∧ m' = fun j => (σ.d j, σ.x j)

/-- `WarpReduceMin`: the strides 32, 16, 8, 4, 2, 1. -/
def RacyWarp (m m' : Nat → K × Nat) : Prop :=
  ∃ m1 m2 m3 m4 m5, RacyStep 32 m m1 ∧ RacyStep 16 m1 m2 ∧ RacyStep 8 m2 m3 ∧ RacyStep 4 m3 m4 ∧ RacyStep 2 m4 m5 ∧ RacyStep 1 m5 m'

/-! ### The invariant of a step -/

/-- The smaller of the two live values of the class of a slot. -/
def low (d0 : Nat → K) (s j : Nat) : K := min (d0 (j % s)) (d0 (j % s + s))

/-- What holds of a lane at each place. -/
def LaneOk (d0 : Nat → K) (x0 : Nat → Nat) (s : Nat) (σ : Sh K) (j : Nat) : Prop :=
  match σ.pc j with
  | .start => σ.d j = d0 j ∧ σ.x j = x0 j
  | .branch => σ.d j = d0 j ∧ σ.x j = x0 j ∧ σ.d (j + s) < d0 j
  | .gotX v => σ.d j = d0 j ∧ σ.x j = x0 j ∧ σ.d (j + s) < d0 j ∧ (j < s → v = x0 (j + s))
  | .wroteX => σ.d j = d0 j ∧ σ.d (j + s) < d0 j ∧ (j < s → σ.x j = x0 (j + s))
  | .gotD w => σ.d j = d0 j ∧ w < d0 j ∧ low d0 s j ≤ w ∧ (j < s → σ.x j = x0 (j + s) ∧ w = d0 (j + s))
  | .done => (σ.d j = d0 j ∧ σ.x j = x0 j ∧ (j < s → d0 j ≤ d0 (j + s))) ∨ (σ.d j < d0 j ∧ (j < s → σ.d j = d0 (j + s) ∧ σ.x j = x0 (j + s)))

structure StepInv (d0 : Nat → K) (x0 : Nat → Nat) (s : Nat) (σ : Sh K) : Prop where
  lower : ∀ j < 64, low d0 s j ≤ σ.d j
  high : ∀ j, 32 ≤ j → σ.d j = d0 j ∧ σ.x j = x0 j
  lane : ∀ j < 32, LaneOk d0 x0 s σ j

theorem low_add (d0 : Nat → K) (s j : Nat) : low d0 s (j + s) = low d0 s j := by
  unfold low
  rw [Nat.add_mod_right]

theorem low_live (d0 : Nat → K) {s i : Nat} (h : i < s) : low d0 s i = min (d0 i) (d0 (i + s)) := by
  unfold low
  rw [Nat.mod_eq_of_lt h]

/-- A slot that a live lane is going to copy does not change. -/
theorem frozen {d0 : Nat → K} {x0 : Nat → Nat} {s : Nat} {σ : Sh K} (h : StepInv d0 x0 s σ) {i : Nat} (hi : i < s) (hlt : d0 (i + s) < d0 i) :
    σ.d (i + s) = d0 (i + s) ∧ σ.x (i + s) = x0 (i + s) := by
  by_cases hj : 32 ≤ i + s
  · exact h.high _ hj
  · have hj' : i + s < 32 := by omega
    have hl := h.lane _ hj'
    have e : low d0 s (i + s) = d0 (i + s) := by rw [low_add, low_live d0 hi, min_eq_right hlt.le]
    have l1 := h.lower (i + s) (by omega)
    have l2 := h.lower (i + s + s) (by omega)
    rw [low_add] at l2
    rw [e] at l1 l2
    unfold LaneOk at hl
    cases hp : σ.pc (i + s) with
    | start => rw [hp] at hl; exact hl
    | branch => rw [hp] at hl; exact absurd (lt_of_le_of_lt l2 hl.2.2) (lt_irrefl _)
    | gotX v => rw [hp] at hl; exact absurd (lt_of_le_of_lt l2 hl.2.2.1) (lt_irrefl _)
    | wroteX => rw [hp] at hl; exact absurd (lt_of_le_of_lt l2 hl.2.1) (lt_irrefl _)
    | gotD w =>
      rw [hp] at hl
      have := hl.2.2.1
      rw [e] at this
      exact absurd (lt_of_le_of_lt this hl.2.1) (lt_irrefl _)
    | done =>
      rw [hp] at hl
      rcases hl with hl | hl
      · exact ⟨hl.1, hl.2.1⟩
      · exact absurd (lt_of_le_of_lt l1 hl.1) (lt_irrefl _)

/-- A live lane in the branch: the slot it looks at is smaller from the start. -/
theorem smaller {d0 : Nat → K} {x0 : Nat → Nat} {s : Nat} {σ : Sh K} (hs : s ≤ 32) (h : StepInv d0 x0 s σ) {i : Nat} (hi : i < s) (hlt : σ.d (i + s) < d0 i) :
    d0 (i + s) < d0 i := by
  have l1 := h.lower (i + s) (by omega)
  rw [low_add, low_live d0 hi] at l1
  rcases min_le_iff.1 l1 with h1 | h1
  · exact absurd (lt_of_le_of_lt h1 hlt) (lt_irrefl _)
  · exact lt_of_le_of_lt h1 hlt

/-- A lane's part of the invariant depends on its own place and slot, and on the other slot being no larger. -/
theorem laneOk_mono {d0 : Nat → K} {x0 : Nat → Nat} {s : Nat} {σ τ : Sh K} {j : Nat} (h : LaneOk d0 x0 s σ j) (hp : τ.pc j = σ.pc j) (hd : τ.d j = σ.d j) (hx : τ.x j = σ.x j)
    (hle : τ.d (j + s) ≤ σ.d (j + s)) : LaneOk d0 x0 s τ j := by
  unfold LaneOk at h ⊢
  rw [hp, hd, hx]
  cases hq : σ.pc j with
  | start => rw [hq] at h; exact h
  | branch => rw [hq] at h; exact ⟨h.1, h.2.1, lt_of_le_of_lt hle h.2.2⟩
  | gotX v => rw [hq] at h; exact ⟨h.1, h.2.1, lt_of_le_of_lt hle h.2.2.1, h.2.2.2⟩
  | wroteX => rw [hq] at h; exact ⟨h.1, lt_of_le_of_lt hle h.2.1, h.2.2⟩
  | gotD w => rw [hq] at h; exact h
  | done => rw [hq] at h; exact h

/-- Every access keeps the invariant. -/
theorem move_inv {d0 : Nat → K} {x0 : Nat → Nat} {s : Nat} (hs0 : 0 < s) (hs : s ≤ 32) {σ τ : Sh K} (h : StepInv d0 x0 s σ) (hm : Move s σ τ) : StepInv d0 x0 s τ := by
  cases hm with
  | skip j hj hp hc =>
    refine ⟨h.lower, h.high, fun k hk => ?_⟩
    by_cases e : k = j
    · subst e
      have hl := h.lane k hk
      unfold LaneOk at hl ⊢
      rw [hp] at hl
      simp only [Function.update_self]
      refine .inl ⟨hl.1, hl.2, fun hks => ?_⟩
      by_contra hlt
      rw [not_le] at hlt
      have := frozen h hks hlt
      rw [hl.1, this.1] at hc
      exact hc hlt
    · exact laneOk_mono (h.lane k hk) (by simp [e]) rfl rfl le_rfl
  | enter j hj hp hc =>
    refine ⟨h.lower, h.high, fun k hk => ?_⟩
    by_cases e : k = j
    · subst e
      have hl := h.lane k hk
      unfold LaneOk at hl ⊢
      rw [hp] at hl
      simp only [Function.update_self]
      refine ⟨hl.1, hl.2, ?_⟩
      rw [← hl.1]
      exact hc
    · exact laneOk_mono (h.lane k hk) (by simp [e]) rfl rfl le_rfl
  | readX j hj hp =>
    refine ⟨h.lower, h.high, fun k hk => ?_⟩
    by_cases e : k = j
    · subst e
      have hl := h.lane k hk
      unfold LaneOk at hl ⊢
      rw [hp] at hl
      simp only [Function.update_self]
      exact ⟨hl.1, hl.2.1, hl.2.2, fun hks => (frozen h hks (smaller hs h hks hl.2.2)).2⟩
    · exact laneOk_mono (h.lane k hk) (by simp [e]) rfl rfl le_rfl
  | writeX j v hj hp =>
    refine ⟨h.lower, fun k hk => ?_, fun k hk => ?_⟩
    · have : k ≠ j := by omega
      simpa [this] using h.high k hk
    · by_cases e : k = j
      · subst e
        have hl := h.lane k hk
        unfold LaneOk at hl ⊢
        rw [hp] at hl
        simp only [Function.update_self]
        exact ⟨hl.1, hl.2.2.1, hl.2.2.2⟩
      · exact laneOk_mono (h.lane k hk) (by simp [e]) rfl (by simp [e]) le_rfl
  | readD j hj hp =>
    refine ⟨h.lower, h.high, fun k hk => ?_⟩
    by_cases e : k = j
    · subst e
      have hl := h.lane k hk
      unfold LaneOk at hl ⊢
      rw [hp] at hl
      simp only [Function.update_self]
      refine ⟨hl.1, hl.2.1, ?_, fun hks => ⟨hl.2.2 hks, (frozen h hks (smaller hs h hks hl.2.1)).1⟩⟩
      rw [← low_add]
      exact h.lower _ (by omega)
    · exact laneOk_mono (h.lane k hk) (by simp [e]) rfl rfl le_rfl
  | writeD j w hj hp =>
    have hl := h.lane j hj
    have hl0 := hl
    unfold LaneOk at hl
    rw [hp] at hl
    have hle : ∀ k, Function.update σ.d j w k ≤ σ.d k := by
      intro k
      by_cases e : k = j
      · subst e
        rw [Function.update_self, hl.1]
        exact hl.2.1.le
      · rw [Function.update_of_ne e]
    refine ⟨fun k hk => ?_, fun k hk => ?_, fun k hk => ?_⟩
    · by_cases e : k = j
      · subst e
        simpa using hl.2.2.1
      · simpa [e] using h.lower k hk
    · have : k ≠ j := by omega
      simpa [this] using h.high k hk
    · by_cases e : k = j
      · subst e
        unfold LaneOk
        simp only [Function.update_self]
        exact .inr ⟨hl.2.1, fun hks => ⟨(hl.2.2.2 hks).2, (hl.2.2.2 hks).1⟩⟩
      · exact laneOk_mono (h.lane k hk) (by simp [e]) (by simp [e]) rfl (hle _)

/-- Slots beyond the first `b` have no smaller distance than the slot of their class below `b`. -/
def Dominated (m : Nat → K × Nat) (b : Nat) : Prop := ∀ j < 64, (m (j % b)).1 ≤ (m j).1

theorem low_le {m : Nat → K × Nat} {s : Nat} (h : Dominated m (s * 2)) {j : Nat} (hj : j < 64) : low (fun j => (m j).1) s j ≤ (m j).1 := by
  refine le_trans ?_ (h j hj)
  unfold low
  rw [Nat.mod_mul]
  rcases Nat.mod_two_eq_zero_or_one (j / s) with e | e
  · rw [e]
    exact min_le_left _ _
  · rw [e]
    rw [Nat.mul_one]
    exact min_le_right _ _

/-- A step in any interleaving: the live slots are as if all lanes had read before any wrote, and they dominate the others. -/
theorem racyStep_spec {m m' : Nat → K × Nat} {s : Nat} (hs0 : 0 < s) (hs : s ≤ 32) (h : Dominated m (s * 2)) (hr : RacyStep s m m') :
    (∀ i < s, m' i = reduceStep 32 s m i) ∧ Dominated m' s := by
  obtain ⟨σ, hrun, hdone, rfl⟩ := hr
  have hinit : StepInv (fun j => (m j).1) (fun j => (m j).2) s (⟨fun j => (m j).1, fun j => (m j).2, fun _ => .start⟩ : Sh K) :=
    ⟨fun j hj => low_le h hj, fun _ _ => ⟨rfl, rfl⟩, fun _ _ => ⟨rfl, rfl⟩⟩
  have hinv : StepInv (fun j => (m j).1) (fun j => (m j).2) s σ := by
    clear hdone
    induction hrun with
    | refl => exact hinit
    | tail _ hm ih => exact move_inv hs0 hs ih hm
  have hlive : ∀ i < s, (σ.d i, σ.x i) = reduceStep 32 s m i := by
    intro i hi
    have hl := hinv.lane i (by omega)
    unfold LaneOk at hl
    rw [hdone i (by omega)] at hl
    unfold reduceStep
    rcases hl with ⟨h1, h2, h3⟩ | ⟨h1, h2⟩
    · rw [if_neg (fun hh => absurd hh.2 (not_lt.2 (h3 hi))), h1, h2]
    · obtain ⟨h3, h4⟩ := h2 hi
      rw [h3] at h1
      rw [if_pos ⟨by omega, h1⟩, h3, h4]
  refine ⟨hlive, fun j hj => ?_⟩
  have hlt : j % s < s := Nat.mod_lt _ hs0
  have e := congrArg Prod.fst (hlive (j % s) hlt)
  dsimp only at e ⊢
  rw [e]
  refine le_trans (le_of_eq ?_) (hinv.lower j hj)
  unfold reduceStep low
  by_cases hc : (m (j % s)).1 > (m (j % s + s)).1
  · rw [if_pos ⟨by omega, hc⟩, min_eq_right hc.le]
  · rw [if_neg (fun hh => hc hh.2), min_eq_left (not_lt.1 hc)]

/-- The result depends on the live slots only. -/
theorem reduceStep_congr {m n : Nat → K × Nat} {s : Nat} (h : ∀ i < s * 2, m i = n i) : ∀ i < s, reduceStep 32 s m i = reduceStep 32 s n i := by
  intro i hi
  unfold reduceStep
  rw [h i (by omega), h (i + s) (by omega)]

theorem racy_agree {m m' n : Nat → K × Nat} {s : Nat} (hs0 : 0 < s) (hs : s ≤ 32) (h : Dominated m (s * 2)) (ha : ∀ i < s * 2, m i = n i) (hr : RacyStep s m m') :
    Dominated m' s ∧ ∀ i < s, m' i = reduceStep 32 s n i := by
  obtain ⟨h1, h2⟩ := racyStep_spec hs0 hs h hr
  exact ⟨h2, fun i hi => (h1 i hi).trans (reduceStep_congr ha i hi)⟩

/-! ### What a user relies on -/

/-- However the lanes interleave, slot 0 is what synchronous lanes compute. -/
theorem warp_sync {m m' : Nat → K × Nat} (h : RacyWarp m m') :
    m' 0 = reduceStep 32 1 (reduceStep 32 2 (reduceStep 32 4 (reduceStep 32 8 (reduceStep 32 16 (reduceStep 32 32 m))))) 0 := by
  obtain ⟨m1, m2, m3, m4, m5, h1, h2, h3, h4, h5, h6⟩ := h
  have a0 : Dominated m (32 * 2) := fun j hj => by rw [Nat.mod_eq_of_lt (by omega)]
  obtain ⟨d1, a1⟩ := racy_agree (n := m) (by omega) (by omega) a0 (fun _ _ => rfl) h1
  obtain ⟨d2, a2⟩ := racy_agree (s := 16) (by omega) (by omega) d1 a1 h2
  obtain ⟨d3, a3⟩ := racy_agree (s := 8) (by omega) (by omega) d2 a2 h3
  obtain ⟨d4, a4⟩ := racy_agree (s := 4) (by omega) (by omega) d3 a3 h4
  obtain ⟨d5, a5⟩ := racy_agree (s := 2) (by omega) (by omega) d4 a4 h5
  obtain ⟨_, a6⟩ := racy_agree (s := 1) (by omega) (by omega) d5 a5 h6
  exact a6 0 (by omega)

/-- So a block's result is the same in every execution. -/
theorem block_race_free {m m' : Nat → K × Nat} (h : RacyWarp (reduceStep 64 64 m) m') : m' 0 = reduceAll m 0 := warp_sync h

/-- And it is a closest candidate: a distance and index that one of the 64 slots holds, no slot having a smaller distance. -/
theorem warp_closest {m m' : Nat → K × Nat} (h : RacyWarp m m') : (∃ j < 64, m' 0 = m j) ∧ ∀ j < 64, (m' 0).1 ≤ (m j).1 := by
  have key : ∀ (n : Nat → K × Nat) (s : Nat), (∀ i < s, (∃ j, (j = i ∨ j = i + s) ∧ reduceStep 32 s n i = n j)
      ∧ (i < 32 → (reduceStep 32 s n i).1 ≤ (n i).1 ∧ (reduceStep 32 s n i).1 ≤ (n (i + s)).1)) := by
    intro n s i hi
    unfold reduceStep
    by_cases hc : (n i).1 > (n (i + s)).1
    · by_cases h32 : i < 32
      · rw [if_pos ⟨h32, hc⟩]
        exact ⟨⟨i + s, .inr rfl, rfl⟩, fun _ => ⟨hc.le, le_rfl⟩⟩
      · rw [if_neg fun hh => h32 hh.1]
        exact ⟨⟨i, .inl rfl, rfl⟩, fun h => absurd h h32⟩
    · rw [if_neg fun hh => hc hh.2]
      exact ⟨⟨i, .inl rfl, rfl⟩, fun _ => ⟨le_rfl, not_lt.1 hc⟩⟩
  have red : ∀ (n : Nat → K × Nat) (s : Nat), s ≤ 32 → (∀ i < s * 2, ∃ j < 64, n i = m j) → (∀ j < 64, ∃ i < s * 2, (n i).1 ≤ (m j).1) →
      (∀ i < s, ∃ j < 64, reduceStep 32 s n i = m j) ∧ ∀ j < 64, ∃ i < s, (reduceStep 32 s n i).1 ≤ (m j).1 := by
    intro n s hs h1 h2
    refine ⟨fun i hi => ?_, fun j hj => ?_⟩
    · obtain ⟨⟨k, hk, e⟩, _⟩ := key n s i hi
      obtain ⟨j, hj, e2⟩ := h1 k (by omega)
      exact ⟨j, hj, e.trans e2⟩
    · obtain ⟨i, hi, hle⟩ := h2 j hj
      by_cases his : i < s
      · exact ⟨i, his, (((key n s i his).2 (by omega)).1).trans hle⟩
      · refine ⟨i - s, by omega, ?_⟩
        have := ((key n s (i - s) (by omega)).2 (by omega)).2
        rw [Nat.sub_add_cancel (by omega)] at this
        exact this.trans hle
  rw [warp_sync h]
  have r1 := red m 32 (by omega) (fun i hi => ⟨i, by omega, rfl⟩) (fun j hj => ⟨j, by omega, le_rfl⟩)
  have r2 := red _ 16 (by omega) r1.1 r1.2
  have r3 := red _ 8 (by omega) r2.1 r2.2
  have r4 := red _ 4 (by omega) r3.1 r3.2
  have r5 := red _ 2 (by omega) r4.1 r4.2
  have r6 := red _ 1 (by omega) r5.1 r5.2
  refine ⟨r6.1 0 (by omega), fun j hj => ?_⟩
  obtain ⟨i, hi, hle⟩ := r6.2 j hj
  have : i = 0 := by omega
  subst this
  exact hle

/-! ### The other slots do depend on the order -/

/-- Two orders of the accesses of lanes 1 and 2 in the step with stride 1: slot 1 is 2 if lane 1 goes first and 1 if lane 2 does. -/
theorem order_matters : ∃ (m : Nat → ℚ × Nat) (σ τ : Sh ℚ),
    Relation.ReflTransGen (Move 1) ⟨fun j => (m j).1, fun j => (m j).2, fun _ => .start⟩ σ
      ∧ Relation.ReflTransGen (Move 1) ⟨fun j => (m j).1, fun j => (m j).2, fun _ => .start⟩ τ
      ∧ σ.pc 1 = .done ∧ σ.pc 2 = .done ∧ τ.pc 1 = .done ∧ τ.pc 2 = .done ∧ σ.d 1 = 2 ∧ τ.d 1 = 1 := by
  let m : Nat → ℚ × Nat := fun j => (if j = 1 then 3 else if j = 2 then 2 else if j = 3 then 1 else 0, j)
  have run : ∀ (σ : Sh ℚ) (j : Nat), j < 32 → σ.pc j = .start → σ.d j > σ.d (j + 1) →
      Relation.ReflTransGen (Move 1) σ ⟨Function.update σ.d j (σ.d (j + 1)), Function.update σ.x j (σ.x (j + 1)), Function.update σ.pc j .done⟩ := by
    intro σ j hj hp hc
    have h1 := Move.enter (s := 1) σ j hj hp hc
    have h2 := Move.readX (s := 1) { σ with pc := Function.update σ.pc j .branch } j hj (by simp)
    have h3 := Move.writeX (s := 1) { σ with pc := Function.update (Function.update σ.pc j .branch) j (.gotX (σ.x (j + 1))) } j (σ.x (j + 1)) hj (by simp)
    have h4 := Move.readD (s := 1) { σ with x := Function.update σ.x j (σ.x (j + 1)), pc := Function.update (Function.update (Function.update σ.pc j .branch) j (.gotX (σ.x (j + 1)))) j .wroteX } j hj (by simp)
    have h5 := Move.writeD (s := 1) { σ with x := Function.update σ.x j (σ.x (j + 1)), pc := Function.update (Function.update (Function.update (Function.update σ.pc j .branch) j (.gotX (σ.x (j + 1)))) j .wroteX) j (.gotD (σ.d (j + 1))) } j (σ.d (j + 1)) hj (by simp)
    have := (((Relation.ReflTransGen.single h1).tail h2).tail h3).tail h4 |>.tail h5
    simpa using this
  refine ⟨m, _, _, (run _ 1 (by omega) rfl ?_).trans (run _ 2 (by omega) ?_ ?_), (run _ 2 (by omega) rfl ?_).trans (run _ 1 (by omega) ?_ ?_), ?_, ?_, ?_, ?_, ?_, ?_⟩
  all_goals simp [m]
  all_goals norm_num

/-! ### Register arrays (`csrc/utils/index_utils.cuh`) -/

/-- The cases of the switch of `RegisterIndexUtils::get` (index_utils.cuh:52-117) and `set` (124-221): case number and array element. -/
def cases : List (Nat × Nat) :=
  [(0, 0), (1, 1), (2, 2), (3, 3), (4, 4), (5, 5), (6, 6), (7, 7), (8, 8), (9, 9), (10, 10), (11, 11), (12, 12), (13, 13), (14, 14), (15, 15),
   (16, 16), (17, 17), (18, 18), (19, 19), (20, 20), (21, 21), (22, 22), (23, 23), (24, 24), (25, 25), (26, 26), (27, 27), (28, 28), (29, 29), (30, 30), (31, 31)]

/-- `RegisterIndexUtils<T, N>::get` (lines 49-119); `dflt` is `T()`. -/
def regGet {T : Type} (N : Nat) (dflt : T) (arr : Nat → T) (idx : Int) : T :=
  if idx < 0 ∨ (N : Int) ≤ idx then dflt
  else match cases.lookup idx.toNat with
    | some k => arr k
    | none => dflt

/-- `RegisterIndexUtils<T, N>::set` (lines 121-223). -/
def regSet {T : Type} (N : Nat) (arr : Nat → T) (idx : Int) (val : T) : Nat → T :=
  if idx < 0 ∨ (N : Int) ≤ idx then arr
  else match cases.lookup idx.toNat with
    | some k => Function.update arr k val
    | none => arr

theorem cases_lookup (k : Nat) : cases.lookup k = if k < 32 then some k else none := by
  by_cases h : k < 32
  · rw [if_pos h]
    have : ∀ k : Fin 32, cases.lookup (k : Nat) = some (k : Nat) := by decide +kernel
    exact this ⟨k, h⟩
  · rw [if_neg h]
    unfold cases
    have e : ∀ c, c < 32 → (k == c) = false := fun c hc => by
      rw [beq_eq_false_iff_ne]
      omega
    simp [List.lookup, e]

/-- Arrays of up to 32 elements: reading and writing elements as usual; indices outside read a default and write nothing. -/
theorem reg_array {T : Type} (N : Nat) (hN : N ≤ 32) (dflt : T) (arr : Nat → T) :
    (∀ i < N, regGet N dflt arr i = arr i) ∧ (∀ i < N, ∀ v, regSet N arr i v = Function.update arr i v)
      ∧ (∀ idx : Int, idx < 0 ∨ (N : Int) ≤ idx → regGet N dflt arr idx = dflt ∧ ∀ v, regSet N arr idx v = arr) := by
  refine ⟨fun i hi => ?_, fun i hi v => ?_, fun idx h => ⟨by unfold regGet; rw [if_pos h], fun v => by unfold regSet; rw [if_pos h]⟩⟩
  · unfold regGet
    rw [if_neg (by omega), Int.toNat_natCast, cases_lookup, if_pos (by omega)]
  · unfold regSet
    rw [if_neg (by omega), Int.toNat_natCast, cases_lookup, if_pos (by omega)]

/-- Longer arrays: elements from 32 on read as the default and are never written, without any error. -/
theorem reg_beyond {T : Type} (N : Nat) (dflt : T) (arr : Nat → T) (i : Nat) (hi : 32 ≤ i) : regGet N dflt arr i = dflt ∧ ∀ v, regSet N arr i v = arr := by
  have h : cases.lookup ((i : Int).toNat) = none := by rw [Int.toNat_natCast, cases_lookup, if_neg (by omega)]
  constructor
  · unfold regGet
    rw [h]
    split_ifs <;> rfl
  · intro v
    unfold regSet
    rw [h]
    split_ifs <;> rfl

/-- What was written is read back, and other elements are unchanged. -/
theorem reg_get_set {T : Type} (N : Nat) (hN : N ≤ 32) (dflt : T) (arr : Nat → T) (i j : Nat) (hi : i < N) (hj : j < N) (v : T) :
    regGet N dflt (regSet N arr i v) j = if j = i then v else regGet N dflt arr j := by
  rw [(reg_array N hN dflt arr).2.1 i hi v, (reg_array N hN dflt _).1 j hj, (reg_array N hN dflt arr).1 j hj]
  split_ifs with h
  · rw [h, Function.update_self]
  · rw [Function.update_of_ne h]

example : regGet 10 0 (regSet 10 (fun k => k * k) 3 7) 3 = 7 ∧ regGet 10 0 (regSet 10 (fun k => k * k) 3 7) 4 = 16 := by decide

end P3D.WarpRace
