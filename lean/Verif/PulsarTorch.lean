/-
Pulsar behind its torch interface: checks of the arguments, the renderers of a batch and their buffers, what each element of a batch is rendered with, results and gradients.

* `csrc/pulsar/pytorch/renderer.cpp:28-69` (constructor), `98-166` (`ensure_on_device`), `168-207` (`ensure_n_renderers_gte`), `209-639` (`arg_check`), `641-888` (`forward`), `890-1593` (`backward`)
* `csrc/pulsar/pytorch/util.h:38-68` (`from_blob`), `csrc/pulsar/pytorch/camera.cpp:16-60` (size of pixels), `csrc/pulsar/pytorch/tensor_util.cpp:22-64` (`sphere_ids_from_result_info_nograd`)
* `renderer/points/pulsar/renderer.py:29-270` (`_Render`), `350-385`, `532-650` (`Renderer`)

Simplifications: exact numbers (no NaN); tensors are their shapes and lists of values; the renderer of one element is an argument here (it is modelled in `Verif.PulsarRender`, `Verif.PulsarDraw`, `Verif.PulsarPass`,
its camera in `Verif.PulsarCam`, its gradients in `Verif.PulsarGrad`); types of tensors are not modelled.
-/
import Mathlib.Algebra.Order.Field.Basic
import Mathlib.Data.List.Basic
import Mathlib.Tactic.Ring
import Mathlib.Tactic.Linarith
import Mathlib.Tactic.NormNum
import Mathlib.Tactic.IntervalCases

set_option linter.unusedSectionVars false

namespace P3D.PulsarTorch

/-- What can go wrong: an argument that is refused (with its number), an index, something else. -/
inductive Err where
  | arg (n : Nat)
  | index
  | runtime
  | value
  deriving DecidableEq, Repr

/-- The first check that fails names its argument. -/
def firstFail : List (Bool × Nat) → Option Nat
  | [] => none
  | (true, _) :: l => firstFail l
  | (false, n) :: _ => some n

theorem firstFail_none (l : List (Bool × Nat)) : firstFail l = none ↔ ∀ c ∈ l, c.1 = true := by
  induction l with
  | nil => simp [firstFail]
  | cons c l ih =>
    obtain ⟨b, n⟩ := c
    cases b <;> simp [firstFail, ih]

/-! ## Shapes -/

/-- Shapes of the arguments. -/
structure Shapes where
  pos : List Nat
  col : List Nat
  rad : List Nat
  cam : List Nat
  p00 : List Nat
  vx : List Nat
  vy : List Nat
  foc : List Nat
  ppo : List Nat
  opa : Option (List Nat)

/-- Checks with a batch, `renderer.cpp:231-345`; `k` is the number of channels. -/
def batchedChecks (k : Nat) (s : Shapes) : List (Bool × Nat) :=
  let b := s.pos.getD 0 0
  let n := s.pos.getD 1 0
  [(decide (s.col.length = 3) && decide (s.col.getD 0 0 = b), 2), (decide (s.rad.length = 2) && decide (s.rad.getD 0 0 = b), 3),
   (decide (s.cam.length = 2) && decide (s.cam.getD 0 0 = b), 4), (decide (s.p00.length = 2) && decide (s.p00.getD 0 0 = b), 5),
   (decide (s.vx.length = 2) && decide (s.vx.getD 0 0 = b), 6), (decide (s.vy.length = 2) && decide (s.vy.getD 0 0 = b), 7),
   (decide (s.foc.length = 1) && decide (s.foc.getD 0 0 = b), 8), (decide (s.ppo.length = 2) && decide (s.ppo.getD 0 0 = b), 9),
   (s.opa.elim true (fun o => decide (o.length = 2) && decide (o.getD 0 0 = b)), 13),
   (decide (s.col.getD 1 0 = n), 2), (decide (s.rad.getD 1 0 = n), 3), (s.opa.elim true (fun o => decide (o.getD 1 0 = n)), 13),
   (decide (s.pos.getD 2 0 = 3), 1), (decide (s.col.getD 2 0 = k), 2), (decide (s.cam.getD 1 0 = 3), 4), (decide (s.p00.getD 1 0 = 3), 5),
   (decide (s.vx.getD 1 0 = 3), 6), (decide (s.vy.getD 1 0 = 3), 7), (decide (s.ppo.getD 1 0 = 2), 9)]

/-- Checks without a batch, up to the number of points, `renderer.cpp:347-395`. -/
def plainDims (s : Shapes) : List (Bool × Nat) :=
  [(decide (s.col.length = 2), 2), (decide (s.rad.length = 1), 3), (decide (s.cam.length = 1), 4), (decide (s.p00.length = 1), 5), (decide (s.vx.length = 1), 6), (decide (s.vy.length = 1), 7),
   (decide (s.foc.length = 0), 8), (decide (s.ppo.length = 1), 9), (s.opa.elim true (fun o => decide (o.length = 1)), 13)]

/-- The numbers of points, `renderer.cpp:377-396`. -/
def plainPoints (s : Shapes) : List (Bool × Nat) :=
  let n := s.pos.getD 0 0
  [(decide (s.col.getD 0 0 = n), 2), (decide (s.rad.getD 0 0 = n), 3), (s.opa.elim true (fun o => decide (o.getD 0 0 = n)), 12)]

/-- The last dimensions, `renderer.cpp:397-433`. -/
def plainLast (k : Nat) (s : Shapes) : List (Bool × Nat) :=
  [(decide (s.pos.getD 1 0 = 3), 1), (decide (s.col.getD 1 0 = k), 2), (decide (s.cam.getD 0 0 = 3), 4), (decide (s.p00.getD 0 0 = 3), 5), (decide (s.vx.getD 0 0 = 3), 6),
   (decide (s.vy.getD 0 0 = 3), 7), (decide (s.ppo.getD 0 0 = 2), 9)]

/-- The shapes part of `arg_check`: size of the batch, number of points, and whether there is a batch. -/
def shapeCheck (k : Nat) (s : Shapes) : Except Err (Nat × Nat × Bool) :=
  if s.pos.length = 3 then
    match firstFail (batchedChecks k s) with
    | some n => .error (.arg n)
    | none => .ok (s.pos.getD 0 0, s.pos.getD 1 0, true)
  else
    match firstFail (plainDims s) with
    | some n => .error (.arg n)
    | none =>
      if s.pos.length = 0 then .error .index
      else match firstFail (plainPoints s) with
        | some n => .error (.arg n)
        | none =>
          if s.pos.length = 1 then .error .index
          else match firstFail (plainLast k s) with
            | some n => .error (.arg n)
            | none => .ok (1, s.pos.getD 0 0, false)

theorem len0 (l : List Nat) : l.length = 0 ↔ l = [] := List.length_eq_zero_iff
theorem len1 (l : List Nat) (a : Nat) : l.length = 1 ∧ l.getD 0 0 = a ↔ l = [a] := by
  match l with
  | [] => simp
  | [x] => simp
  | _ :: _ :: _ => simp
theorem len2 (l : List Nat) (a b : Nat) : l.length = 2 ∧ l.getD 0 0 = a ∧ l.getD 1 0 = b ↔ l = [a, b] := by
  match l with
  | [] => simp
  | [_] => simp
  | [x, y] => simp
  | _ :: _ :: _ :: _ => simp
theorem len3 (l : List Nat) (a b c : Nat) : l.length = 3 ∧ l.getD 0 0 = a ∧ l.getD 1 0 = b ∧ l.getD 2 0 = c ↔ l = [a, b, c] := by
  match l with
  | [] => simp
  | [_] => simp
  | [_, _] => simp
  | [x, y, z] => simp
  | _ :: _ :: _ :: _ :: _ => simp

/-- With a batch, arguments are accepted exactly if all have the documented shapes for one size of the batch and one number of points. -/
theorem batched_ok (k : Nat) (s : Shapes) (b n : Nat) : shapeCheck k s = .ok (b, n, true) ↔
    s.pos = [b, n, 3] ∧ s.col = [b, n, k] ∧ s.rad = [b, n] ∧ s.cam = [b, 3] ∧ s.p00 = [b, 3] ∧ s.vx = [b, 3] ∧ s.vy = [b, 3] ∧ s.foc = [b] ∧ s.ppo = [b, 2] ∧ ∀ o, s.opa = some o → o = [b, n] := by
  constructor
  · intro h
    unfold shapeCheck at h
    split_ifs at h with h3 h0 h1
    · cases hf : firstFail (batchedChecks k s) with
      | some m => rw [hf] at h; cases h
      | none =>
        rw [hf] at h
        simp only [Except.ok.injEq, Prod.mk.injEq, and_true] at h
        rw [firstFail_none] at hf
        unfold batchedChecks at hf
        rw [h.1, h.2] at hf
        simp only [List.forall_mem_cons, List.not_mem_nil, false_implies, implies_true, and_true, Bool.and_eq_true, decide_eq_true_eq] at hf
        obtain ⟨a2, a3, a4, a5, a6, a7, a8, a9, a13, b2, b3, b13, c1, c2, c4, c5, c6, c7, c9⟩ := hf
        refine ⟨(len3 _ _ _ _).mp ⟨h3, h.1, h.2, c1⟩, (len3 _ _ _ _).mp ⟨a2.1, a2.2, b2, c2⟩, (len2 _ _ _).mp ⟨a3.1, a3.2, b3⟩, (len2 _ _ _).mp ⟨a4.1, a4.2, c4⟩, (len2 _ _ _).mp ⟨a5.1, a5.2, c5⟩,
          (len2 _ _ _).mp ⟨a6.1, a6.2, c6⟩, (len2 _ _ _).mp ⟨a7.1, a7.2, c7⟩, (len1 _ _).mp a8, (len2 _ _ _).mp ⟨a9.1, a9.2, c9⟩, ?_⟩
        intro o ho
        rw [ho] at a13 b13
        simp only [Option.elim_some, Bool.and_eq_true, decide_eq_true_eq] at a13 b13
        exact (len2 _ _ _).mp ⟨a13.1, a13.2, b13⟩
    all_goals
      exfalso
      revert h
      repeat' split
      all_goals simp
  · rintro ⟨h1, h2, h3, h4, h5, h6, h7, h8, h9, h13⟩
    unfold shapeCheck
    rw [if_pos (by rw [h1]; rfl)]
    have hf : firstFail (batchedChecks k s) = none := by
      rw [firstFail_none]
      unfold batchedChecks
      rw [h1, h2, h3, h4, h5, h6, h7, h8, h9]
      cases ho : s.opa with
      | none => simp
      | some o =>
        rw [h13 o ho]
        simp
    rw [hf]
    simp [h1]

/-- Without a batch the same holds but for positions: further dimensions of them are not noticed. -/
theorem plain_ok (k : Nat) (s : Shapes) (b n : Nat) : shapeCheck k s = .ok (b, n, false) ↔
    b = 1 ∧ (∃ more, s.pos = n :: 3 :: more ∧ more.length ≠ 1) ∧ s.col = [n, k] ∧ s.rad = [n] ∧ s.cam = [3] ∧ s.p00 = [3] ∧ s.vx = [3] ∧ s.vy = [3] ∧ s.foc = [] ∧ s.ppo = [2] ∧
      ∀ o, s.opa = some o → o = [n] := by
  constructor
  · intro h
    unfold shapeCheck at h
    split_ifs at h with h3 h0 h1
    · revert h
      split <;> simp
    · revert h
      split <;> simp
    · revert h
      split
      · simp
      · split <;> simp
    · cases hf : firstFail (plainDims s) with
      | some m => rw [hf] at h; cases h
      | none =>
        cases hg : firstFail (plainPoints s) with
        | some m => rw [hf, hg] at h; cases h
        | none =>
          cases hl : firstFail (plainLast k s) with
          | some m => rw [hf, hg, hl] at h; cases h
          | none =>
            rw [hf, hg, hl] at h
            simp only [Except.ok.injEq, Prod.mk.injEq, and_true] at h
            rw [firstFail_none] at hf hg hl
            unfold plainDims at hf
            unfold plainPoints at hg
            unfold plainLast at hl
            rw [h.2] at hg
            simp only [List.forall_mem_cons, List.not_mem_nil, false_implies, implies_true, and_true, decide_eq_true_eq] at hf hg hl
            obtain ⟨a2, a3, a4, a5, a6, a7, a8, a9, a13⟩ := hf
            obtain ⟨b2, b3, b13⟩ := hg
            obtain ⟨c1, c2, c4, c5, c6, c7, c9⟩ := hl
            refine ⟨h.1.symm, ?_, (len2 _ _ _).mp ⟨a2, b2, c2⟩, (len1 _ _).mp ⟨a3, b3⟩, (len1 _ _).mp ⟨a4, c4⟩, (len1 _ _).mp ⟨a5, c5⟩, (len1 _ _).mp ⟨a6, c6⟩, (len1 _ _).mp ⟨a7, c7⟩, (len0 _).mp a8,
              (len1 _ _).mp ⟨a9, c9⟩, ?_⟩
            · match hp : s.pos, h0, h1, h3, h.2, c1 with
              | [], h0, _, _, _, _ => exact absurd rfl h0
              | [_], _, h1, _, _, _ => exact absurd rfl h1
              | x :: y :: more, _, _, h3, hx, hy =>
                simp only [List.getD_cons_zero, List.getD_cons_succ] at hx hy
                subst hx hy
                refine ⟨more, rfl, ?_⟩
                intro hm
                exact h3 (by simp [hm])
            · intro o ho
              rw [ho] at a13 b13
              simp only [Option.elim_some, decide_eq_true_eq] at a13 b13
              exact (len1 _ _).mp ⟨a13, b13⟩
  · rintro ⟨rfl, ⟨more, h1, hm⟩, h2, h3, h4, h5, h6, h7, h8, h9, h13⟩
    unfold shapeCheck
    have hf : firstFail (plainDims s) = none := by
      rw [firstFail_none]
      unfold plainDims
      rw [h2, h3, h4, h5, h6, h7, h8, h9]
      cases ho : s.opa with
      | none => simp
      | some o => rw [h13 o ho]; simp
    have hg : firstFail (plainPoints s) = none := by
      rw [firstFail_none]
      unfold plainPoints
      rw [h1, h2, h3]
      cases ho : s.opa with
      | none => simp
      | some o => rw [h13 o ho]; simp
    have hl : firstFail (plainLast k s) = none := by
      rw [firstFail_none]
      unfold plainLast
      rw [h1, h2, h4, h5, h6, h7, h9]
      simp
    rw [hf, hg, hl, if_neg (by rw [h1]; simpa using hm), if_neg (by rw [h1]; simp)]
    dsimp only
    rw [if_neg (by rw [h1]; simp), h1]
    rfl

/-! ## Values -/

section values
variable {K : Type} [Field K] [LinearOrder K] [IsStrictOrderedRing K]

/-- Values of the arguments. -/
structure Vals (K : Type) where
  radii : List K
  focal : List K
  gamma : K
  maxDepth : K
  minDepth : K
  pad : K
  hits : Nat
  mode : Nat
  opacity : Option (List K)

/-- `focal_length.max()`, an error of nothing. -/
def maxOf : List K → Option K
  | [] => none
  | a :: l => some (l.foldl max a)

/-- Checks up to the largest focal length, `renderer.cpp:563-590`. -/
def before (eps : K) (orthogonal : Bool) (v : Vals K) : List (Bool × Nat) :=
  [(decide (∀ r ∈ v.radii, eps < r), 3), (if orthogonal then decide (∀ f ∈ v.focal, f = 0) else decide (∀ f ∈ v.focal, eps < f), 8), (decide (v.gamma ≤ 1 ∧ 1 / 100000 ≤ v.gamma), 10)]

/-- Checks after it, `renderer.cpp:594-629`. -/
def after (eps f m : K) (v : Vals K) : List (Bool × Nat) :=
  [(decide (f < m), 12), (decide (m + eps < v.maxDepth), 11), (decide (0 ≤ v.pad ∧ v.pad < 1), 14), (decide (0 < v.hits), 14), (decide (v.mode < 2), 15),
   (decide (∀ o ∈ v.opacity.getD [], 0 ≤ o), 13), (decide (∀ o ∈ v.opacity.getD [], o ≤ 1), 13)]

/-- The part of `arg_check` about values, `renderer.cpp:563-629`: the minimal depth that is used. -/
def valueCheck (eps : K) (orthogonal : Bool) (v : Vals K) : Except Err K :=
  match firstFail (before eps orthogonal v) with
  | some n => .error (.arg n)
  | none => match maxOf v.focal with
    | none => .error .runtime
    | some f =>
      let m := if v.minDepth = 0 then f + 2 * eps else v.minDepth
      match firstFail (after eps f m v) with
      | some n => .error (.arg n)
      | none => .ok m

theorem maxOf_spec (l : List K) (m : K) (h : maxOf l = some m) : m ∈ l ∧ ∀ x ∈ l, x ≤ m := by
  match l, h with
  | a :: l, h =>
    have h := Option.some.inj h
    subst h
    have key : ∀ (l : List K) (a : K), (l.foldl max a = a ∨ l.foldl max a ∈ l) ∧ a ≤ l.foldl max a ∧ ∀ x ∈ l, x ≤ l.foldl max a := by
      intro l
      induction l with
      | nil => intro a; simp
      | cons b l ih =>
        intro a
        obtain ⟨h1, h2, h3⟩ := ih (max a b)
        rw [List.foldl_cons]
        refine ⟨?_, le_trans (le_max_left _ _) h2, ?_⟩
        · rcases h1 with h1 | h1
          · rcases max_choice a b with h | h
            · exact Or.inl (h1.trans h)
            · right
              rw [h1, h]
              exact List.mem_cons_self ..
          · exact Or.inr (List.mem_cons_of_mem _ h1)
        · intro x hx
          rcases List.mem_cons.mp hx with rfl | hx
          · exact le_trans (le_max_right _ _) h2
          · exact h3 x hx
    obtain ⟨h1, h2, h3⟩ := key l a
    refine ⟨?_, ?_⟩
    · rcases h1 with h1 | h1
      · rw [h1]
        exact List.mem_cons_self ..
      · exact List.mem_cons_of_mem _ h1
    · intro x hx
      rcases List.mem_cons.mp hx with rfl | hx
      · exact h2
      · exact h3 x hx

/-- Values are accepted exactly if each is in its range; the minimal depth is the one given or, for zero, a little more than the largest focal length of the whole batch; it is beyond all focal lengths and before the
maximal depth. -/
theorem value_ok (eps : K) (orth : Bool) (v : Vals K) (m : K) : valueCheck eps orth v = .ok m ↔
    (∀ r ∈ v.radii, eps < r) ∧ (∀ f ∈ v.focal, if orth then f = 0 else eps < f) ∧ 1 / 100000 ≤ v.gamma ∧ v.gamma ≤ 1 ∧
    (∃ f ∈ v.focal, (∀ x ∈ v.focal, x ≤ f) ∧ m = if v.minDepth = 0 then f + 2 * eps else v.minDepth) ∧ (∀ f ∈ v.focal, f < m) ∧ m + eps < v.maxDepth ∧ 0 ≤ v.pad ∧ v.pad < 1 ∧ 0 < v.hits ∧
    (v.mode = 0 ∨ v.mode = 1) ∧ ∀ l, v.opacity = some l → ∀ o ∈ l, 0 ≤ o ∧ o ≤ 1 := by
  have hop : (∀ l, v.opacity = some l → ∀ o ∈ l, 0 ≤ o ∧ o ≤ 1) ↔ (∀ o ∈ v.opacity.getD [], 0 ≤ o) ∧ ∀ o ∈ v.opacity.getD [], o ≤ 1 := by
    cases v.opacity with
    | none => simp
    | some l =>
      simp only [Option.some.injEq, Option.getD_some]
      constructor
      · intro h
        exact ⟨fun o ho => (h l rfl o ho).1, fun o ho => (h l rfl o ho).2⟩
      · rintro ⟨h1, h2⟩ l' rfl o ho
        exact ⟨h1 o ho, h2 o ho⟩
  rw [hop]
  have hb : firstFail (before eps orth v) = none ↔ (∀ r ∈ v.radii, eps < r) ∧ (∀ f ∈ v.focal, if orth then f = 0 else eps < f) ∧ 1 / 100000 ≤ v.gamma ∧ v.gamma ≤ 1 := by
    rw [firstFail_none]
    unfold before
    cases orth
    · simp only [List.forall_mem_cons, List.not_mem_nil, false_implies, implies_true, and_true, decide_eq_true_eq, Bool.false_eq_true, if_false]
      tauto
    · simp only [List.forall_mem_cons, List.not_mem_nil, false_implies, implies_true, and_true, decide_eq_true_eq, if_true]
      tauto
  have ha : ∀ f m, firstFail (after eps f m v) = none ↔ f < m ∧ m + eps < v.maxDepth ∧ (0 ≤ v.pad ∧ v.pad < 1) ∧ 0 < v.hits ∧ v.mode < 2 ∧ (∀ o ∈ v.opacity.getD [], 0 ≤ o) ∧
      ∀ o ∈ v.opacity.getD [], o ≤ 1 := by
    intro f m
    rw [firstFail_none]
    unfold after
    simp only [List.forall_mem_cons, List.not_mem_nil, false_implies, implies_true, and_true, decide_eq_true_eq]
  constructor
  · intro h
    unfold valueCheck at h
    cases h1 : firstFail (before eps orth v) with
    | some n => rw [h1] at h; cases h
    | none =>
      cases hm : maxOf v.focal with
      | none => rw [h1, hm] at h; cases h
      | some f =>
        rw [h1, hm] at h
        dsimp only at h
        obtain ⟨hf1, hf2⟩ := maxOf_spec _ _ hm
        cases h2 : firstFail (after eps f (if v.minDepth = 0 then f + 2 * eps else v.minDepth) v) with
        | some n => rw [h2] at h; cases h
        | none =>
          rw [h2] at h
          have h := Except.ok.inj h
          rw [h] at h2
          obtain ⟨b1, b2, b3, b4⟩ := hb.mp h1
          obtain ⟨a1, a2, a3, a4, a5, a6, a7⟩ := (ha _ _).mp h2
          exact ⟨b1, b2, b3, b4, ⟨f, hf1, hf2, h.symm⟩, fun x hx => lt_of_le_of_lt (hf2 x hx) a1, a2, a3.1, a3.2, a4, by omega, a6, a7⟩
  · rintro ⟨h1, h2, h3, h4, ⟨f, hf1, hf2, hm⟩, h5, h6, h7, h8, h9, h10, h11, h12⟩
    unfold valueCheck
    rw [hb.mpr ⟨h1, h2, h3, h4⟩]
    cases hmax : maxOf v.focal with
    | none =>
      cases hv : v.focal with
      | nil => rw [hv] at hf1; cases hf1
      | cons a l => rw [hv] at hmax; cases hmax
    | some f' =>
      obtain ⟨g1, g2⟩ := maxOf_spec _ _ hmax
      have hff : f' = f := le_antisymm (hf2 _ g1) (g2 _ hf1)
      subst hff
      dsimp only
      rw [← hm, (ha _ _).mpr ⟨h5 _ hf1, h6, ⟨h7, h8⟩, h9, by omega, h11, h12⟩]

/-- A batch without elements is never accepted. -/
theorem value_empty (eps : K) (orth : Bool) (v : Vals K) (h : v.focal = []) (m : K) : valueCheck eps orth v ≠ .ok m := by
  unfold valueCheck
  rw [h]
  cases firstFail (before eps orth v) <;> simp [maxOf]

/-! ## What the elements of a batch are rendered with -/

/-- What an element is rendered with: opacities (as many values as points from the pointer on) and minimal depth, `renderer.cpp:730-740`, `751-830`: the pointer to the opacities is the same for all elements. -/
def useBatch (eps : K) (n : Nat) (minDepth : K) (focal : List K) (opacity : Option (List (List K))) : List (Option (List K) × K) :=
  focal.map (fun _ => (opacity.map (fun o => o.flatten.take n), if minDepth = 0 then (maxOf focal).getD 0 + 2 * eps else minDepth))

/-- The same for an element alone. -/
def useAlone (eps : K) (n : Nat) (minDepth focal : K) (opacity : Option (List K)) : Option (List K) × K :=
  (opacity.map (fun o => o.take n), if minDepth = 0 then (maxOf [focal]).getD 0 + 2 * eps else minDepth)

/-- Element `i` of a batch is rendered with the opacities of the first element, whatever its own are; so it is rendered as if alone exactly if these agree and, when no minimal depth is given, its focal length is the
largest of the batch. -/
theorem batch_uses (eps : K) (n : Nat) (minDepth : K) (focal : List K) (rows : List (List K)) (hl : rows.length = focal.length) (hr : ∀ r ∈ rows, r.length = n)
    (i : Nat) (f : K) (r r0 : List K) (hf : focal[i]? = some f) (hi : rows[i]? = some r) (h0 : rows[0]? = some r0) :
    ((useBatch eps n minDepth focal (some rows))[i]?.map Prod.fst = some (some r0)) ∧
    ((useBatch eps n minDepth focal (some rows))[i]? = some (useAlone eps n minDepth f (some r)) ↔ r = r0 ∧ (minDepth = 0 → ∀ x ∈ focal, x ≤ f)) ∧
    ((useBatch eps n minDepth focal none)[i]? = some (useAlone eps n minDepth f none) ↔ (minDepth = 0 → ∀ x ∈ focal, x ≤ f)) := by
  have e0 : (rows.flatten).take n = r0 := by
    cases rows with
    | nil => cases h0
    | cons a l =>
      have : a = r0 := Option.some.inj h0
      subst this
      rw [List.flatten_cons, ← hr a (List.mem_cons_self ..), List.take_left']
      rfl
  have er : r.take n = r := List.take_of_length_le (le_of_eq (hr r (List.mem_of_getElem? hi)))
  have hmem : f ∈ focal := List.mem_of_getElem? hf
  obtain ⟨m, hm⟩ : ∃ m, maxOf focal = some m := by
    cases focal with
    | nil => cases hmem
    | cons a l => exact ⟨_, rfl⟩
  obtain ⟨m1, m2⟩ := maxOf_spec _ _ hm
  have hmf : m = f ↔ ∀ x ∈ focal, x ≤ f := by
    constructor
    · rintro rfl
      exact m2
    · intro h
      exact le_antisymm (h m m1) (m2 f hmem)
  have hd : ((if minDepth = 0 then m + 2 * eps else minDepth) = if minDepth = 0 then f + 2 * eps else minDepth) ↔ (minDepth = 0 → ∀ x ∈ focal, x ≤ f) := by
    by_cases h : minDepth = 0
    · simp only [h, if_true, add_left_inj, hmf, true_implies]
    · simp [h]
  have h1 : maxOf [f] = some f := rfl
  refine ⟨?_, ?_, ?_⟩
  · simp only [useBatch, List.getElem?_map, hf, Option.map_some, e0]
  · simp only [useBatch, useAlone, List.getElem?_map, hf, Option.map_some, e0, er, hm, h1, Option.getD_some, Option.some.injEq, Prod.mk.injEq, hd]
    constructor
    · rintro ⟨a, b⟩
      exact ⟨a.symm, b⟩
    · rintro ⟨a, b⟩
      exact ⟨a.symm, b⟩
  · simp only [useBatch, useAlone, List.getElem?_map, hf, Option.map_some, Option.map_none, hm, h1, Option.getD_some, Option.some.injEq, Prod.mk.injEq, true_and, hd]

/-- The check of the size of pixels, `camera.cpp:35-38`, for the lengths of the two vectors. -/
def pixelsAgree (eps lx ly : K) : Bool := decide (¬ eps < ly * (1 / 2) - (1 / 2) * lx)

/-- It is one-sided: pixels that are too low are never refused, pixels that are too high are. -/
theorem pixelsAgree_spec (eps lx ly : K) (he : 0 ≤ eps) : (ly ≤ lx → pixelsAgree eps lx ly = true) ∧ (lx + 2 * eps < ly → pixelsAgree eps lx ly = false) := by
  unfold pixelsAgree
  constructor
  · intro h
    simp only [decide_eq_true_eq, not_lt]
    linarith
  · intro h
    simp only [decide_eq_false_iff_not, not_not]
    linarith

end values

/-! ## Renderers and their buffers -/

/-- A device: `none` is the host, `some i` GPU `i`. -/
abbrev Dev := Option Nat

/-- The interface: its device, its renderers (settings and the device of the buffers). -/
structure St (C : Type) where
  dev : Dev
  vec : List (C × Dev)

/-- The constructor, `renderer.cpp:28-69`. -/
def St.init {C : Type} (c : C) : St C := ⟨none, [(c, none)]⟩

/-- `ensure_on_device`, `renderer.cpp:98-166`. -/
def St.move {C : Type} (s : St C) (cuda : Bool) (d : Dev) : Except Err (St C) :=
  if d = s.dev then .ok s
  else if cuda then .ok ⟨d, match s.vec with
    | [] => []
    | (c, _) :: l => ((c, d) :: l.map (fun _ => (c, d)))⟩
  else .error .runtime

/-- `ensure_n_renderers_gte`, `renderer.cpp:168-207`: buffers on a GPU are made on the one that is current. -/
def St.grow {C : Type} (s : St C) (cur b : Nat) : St C := match s.vec with
  | [] => s
  | (c, d) :: l => ⟨s.dev, (c, d) :: l ++ List.replicate (b - s.vec.length) (c, s.dev.map (fun _ => cur))⟩

/-- A call: the device of the tracker, the current GPU, the size of the batch. -/
structure Call where
  dev : Dev
  cur : Nat
  batch : Nat

/-- A pass (as far as buffers go). -/
def St.pass {C : Type} (s : St C) (cuda : Bool) (k : Call) : Except Err (St C) := match s.move cuda k.dev with
  | .error e => .error e
  | .ok s => .ok (s.grow k.cur k.batch)

/-- Calls one after the other. -/
def St.run {C : Type} (s : St C) (cuda : Bool) : List Call → Except Err (St C)
  | [] => .ok s
  | k :: ks => match s.pass cuda k with
    | .error e => .error e
    | .ok s => s.run cuda ks

theorem pass_inv {C : Type} (c : C) (s t : St C) (cuda : Bool) (k : Call) (hc : ∀ r ∈ s.vec, r.1 = c) (hn : s.vec ≠ []) (hp : s.pass cuda k = .ok t) :
    (∀ r ∈ t.vec, r.1 = c) ∧ t.vec ≠ [] ∧ t.dev = k.dev ∧ t.vec.length = max s.vec.length k.batch := by
  unfold St.pass at hp
  cases hm : s.move cuda k.dev with
  | error e => rw [hm] at hp; cases hp
  | ok u =>
    rw [hm] at hp
    dsimp only at hp
    injection hp with hp
    have hu : (∀ r ∈ u.vec, r.1 = c) ∧ u.vec ≠ [] ∧ u.dev = k.dev ∧ u.vec.length = s.vec.length := by
      unfold St.move at hm
      split_ifs at hm with h1 h2
      · injection hm with hm
        subst hm
        exact ⟨hc, hn, h1.symm, rfl⟩
      · injection hm with hm
        subst hm
        cases hv : s.vec with
        | nil => exact absurd hv hn
        | cons a l =>
          have ha := hc a (by rw [hv]; exact List.mem_cons_self ..)
          refine ⟨?_, by simp, rfl, by simp⟩
          intro r hr
          simp only [List.mem_cons, List.mem_map] at hr
          rcases hr with rfl | ⟨_, _, rfl⟩ <;> exact ha
    obtain ⟨u1, u2, u3, u4⟩ := hu
    unfold St.grow at hp
    cases hv : u.vec with
    | nil => exact absurd hv u2
    | cons a l =>
      obtain ⟨a1, a2⟩ := a
      rw [hv] at hp
      dsimp only at hp
      subst hp
      have ha : a1 = c := u1 (a1, a2) (by rw [hv]; exact List.mem_cons_self ..)
      refine ⟨?_, by simp, u3, ?_⟩
      · intro r hr
        rcases List.mem_append.mp hr with hr | hr
        · exact u1 r (by rw [hv]; exact hr)
        · rw [List.eq_of_mem_replicate hr]
          exact ha
      · rw [hv] at u4
        simp only [List.length_append, List.length_replicate] at u4 ⊢
        omega

/-- After any calls: all renderers have the settings of the constructor, and there are as many as the largest batch so far (at least one); none is taken away. -/
theorem run_inv {C : Type} (c : C) (cuda : Bool) (ks : List Call) (s t : St C) (hc : ∀ r ∈ s.vec, r.1 = c) (hn : s.vec ≠ []) (h : s.run cuda ks = .ok t) :
    (∀ r ∈ t.vec, r.1 = c) ∧ t.vec.length = (ks.map Call.batch).foldl max s.vec.length := by
  induction ks generalizing s with
  | nil =>
    injection h with h
    subst h
    exact ⟨hc, rfl⟩
  | cons k ks ih =>
    unfold St.run at h
    cases hp : s.pass cuda k with
    | error e => rw [hp] at h; cases h
    | ok u =>
      rw [hp] at h
      obtain ⟨u1, u2, -, u4⟩ := pass_inv c s u cuda k hc hn hp
      have := ih u u1 u2 h
      rw [u4] at this
      exact this

/-- The buffers are on the device of the interface after every call if on calls to a GPU this is the current one. -/
theorem run_device {C : Type} (cuda : Bool) (ks : List Call) (s t : St C) (hd : ∀ r ∈ s.vec, r.2 = s.dev) (hk : ∀ k ∈ ks, ∀ g, k.dev = some g → k.cur = g) (h : s.run cuda ks = .ok t) :
    ∀ r ∈ t.vec, r.2 = t.dev := by
  induction ks generalizing s with
  | nil =>
    injection h with h
    subst h
    exact hd
  | cons k ks ih =>
    unfold St.run at h
    cases hp : s.pass cuda k with
    | error e => rw [hp] at h; cases h
    | ok u =>
      rw [hp] at h
      refine ih u ?_ (fun k' hk' => hk k' (List.mem_cons_of_mem _ hk')) h
      unfold St.pass at hp
      cases hm : s.move cuda k.dev with
      | error e => rw [hm] at hp; cases hp
      | ok w =>
        rw [hm] at hp
        dsimp only at hp
        injection hp with hp
        have hw : (∀ r ∈ w.vec, r.2 = w.dev) ∧ w.dev = k.dev := by
          unfold St.move at hm
          split_ifs at hm with h1 h2
          · injection hm with hm
            subst hm
            exact ⟨hd, h1.symm⟩
          · injection hm with hm
            subst hm
            refine ⟨?_, rfl⟩
            cases s.vec with
            | nil => simp
            | cons a l =>
              intro r hr
              simp only [List.mem_cons, List.mem_map] at hr
              rcases hr with rfl | ⟨_, _, rfl⟩ <;> rfl
        unfold St.grow at hp
        cases hv : w.vec with
        | nil =>
          rw [hv] at hp
          dsimp only at hp
          subst hp
          exact hw.1
        | cons a l =>
          obtain ⟨a1, a2⟩ := a
          rw [hv] at hp
          dsimp only at hp
          subst hp
          intro r hr
          rcases List.mem_append.mp hr with hr | hr
          · exact hw.1 r (by rw [hv]; exact hr)
          · rw [List.eq_of_mem_replicate hr]
            dsimp only
            cases hwd : w.dev with
            | none => rfl
            | some g =>
              rw [Option.map_some, hk k (List.mem_cons_self ..) g (by rw [← hw.2, hwd])]

/-- Otherwise they are not: a batch of two on GPU 1 while GPU 0 is current leaves the second renderer with buffers on GPU 0. -/
theorem wrong_device {C : Type} (c : C) : (St.init c).run true [⟨some 1, 0, 2⟩] = .ok ⟨some 1, [(c, some 1), (c, some 0)]⟩ := rfl

/-- Without CUDA only the host is possible. -/
theorem no_cuda {C : Type} (c : C) (g cur b : Nat) : (St.init c).run false [⟨some g, cur, b⟩] = .error .runtime := by
  simp [St.run, St.pass, St.move, St.init]

/-! ## Results -/

/-- Shape of the image, `renderer.cpp:842-887`: the hit map has one channel. -/
def imageShape (batch : Option Nat) (h w k mode : Nat) : List Nat := (match batch with | none => [] | some b => [b]) ++ [h, w, if mode = 1 then min k 1 else k]

/-- Checks of the gradient of the image in `backward`, lines 937-967. -/
def gradShapeOk (batch : Option Nat) (h w k : Nat) (g : List Nat) : Bool := match batch, g with
  | none, [a, b, c] => a = h && b = w && c = k
  | some n, [m, a, b, c] => a = h && b = w && c = k && m = n
  | _, _ => false

/-- An image has the shape that `backward` wants exactly if it is no hit map of several channels. -/
theorem imageShape_ok (batch : Option Nat) (h w k mode : Nat) (hk : 0 < k) : gradShapeOk batch h w k (imageShape batch h w k mode) = true ↔ mode ≠ 1 ∨ k = 1 := by
  cases batch with
  | none =>
    simp only [imageShape, List.nil_append, gradShapeOk, decide_true, Bool.and_true, Bool.true_and, decide_eq_true_eq]
    split_ifs with hm
    · omega
    · simp [hm]
  | some n =>
    simp only [imageShape, List.cons_append, List.nil_append, gradShapeOk, decide_true, Bool.and_true, Bool.true_and, decide_eq_true_eq]
    split_ifs with hm
    · omega
    · simp [hm]

/-- The gradient of an image is accepted exactly if it has height, width and channels of the renderer, after the size of the batch if there is one. -/
theorem gradShapeOk_spec (batch : Option Nat) (h w k : Nat) (g : List Nat) : gradShapeOk batch h w k g = true ↔ g = batch.toList ++ [h, w, k] := by
  unfold gradShapeOk
  split
  · simp [and_assoc]
  · simp only [Bool.and_eq_true, decide_eq_true_eq, Option.toList_some, List.cons_append, List.nil_append, List.cons.injEq, and_true]
    tauto
  · rename_i h1 h2
    constructor
    · intro h
      cases h
    · rintro rfl
      cases batch with
      | none => exact (h1 h w k rfl rfl).elim
      | some n => exact (h2 n n h w k rfl rfl).elim

example : gradShapeOk (some 2) 4 5 3 [3, 4, 5, 3] = false := by decide

/-- Which of the nineteen inputs of `_Render.apply` get a gradient, `renderer.py:180-268` with `renderer.cpp:1023-1025` and `1345-1590`: positions, colours, radii, four vectors of the camera, ..., opacity at 14. -/
def gradients (needs : Nat → Bool) : Nat → Bool := fun i =>
  let cam := needs 3 || needs 4 || needs 5 || needs 6 || needs 7
  if i = 0 then needs 0 else if i = 1 then needs 1 else if i = 2 then needs 2 else if i = 3 then cam else if i = 4 then cam else if i = 5 then cam else if i = 6 then cam
  else if i = 14 then needs 14 else false

/-- Every needed gradient of positions, colours, radii, camera vectors and opacities is there; no other input ever gets one, the focal length included. -/
theorem gradients_spec (needs : Nat → Bool) (i : Nat) :
    ((i ≤ 6 ∨ i = 14) → needs i = true → gradients needs i = true) ∧ (gradients needs i = true → i ≤ 6 ∨ i = 14) ∧ ((i ≤ 2 ∨ i = 14) → gradients needs i = needs i) := by
  unfold gradients
  dsimp only
  refine ⟨?_, ?_, ?_⟩
  · intro h hn
    rcases h with h | rfl
    · interval_cases i <;> simp [hn]
    · simp [hn]
  · intro h
    split_ifs at h <;> omega
  · intro h
    rcases h with h | rfl
    · interval_cases i <;> simp
    · simp

/-- The gradients of the camera as they are cut from the buffer of twelve numbers, lines 1425-1560. -/
def camGrads {K : Type} (buf : List K) : List (List K) := [0, 3, 6, 9].map (fun o => (buf.drop o).take 3)

/-- Each number is in one of the four, in order. -/
theorem camGrads_spec {K : Type} (buf : List K) (h : buf.length = 12) : (camGrads buf).flatten = buf ∧ ∀ g ∈ camGrads buf, g.length = 3 := by
  match buf, h with
  | [_, _, _, _, _, _, _, _, _, _, _, _], _ => simp [camGrads]

/-- The ids of tracked spheres, `tensor_util.cpp:22-64`, for one pixel: every other channel from the third on. -/
def sphereIds {K : Type} (info : List K) : List K := (List.range ((info.length - 3) / 2)).filterMap (fun j => info[3 + 2 * j]?)

/-- `depth_map_from_result_info_nograd`, `renderer.py:357-371`. -/
def depthOf {K : Type} (info : List K) : Option K := info[4]?

/-- Channels of a pixel: three numbers, then id and depth of each tracked sphere (`renderer.render.device.h:405-410`). -/
def infoOf {K : Type} (a b c : K) (tracked : List (K × K)) : List K := a :: b :: c :: tracked.flatMap (fun t => [t.1, t.2])

/-- The ids are those of the tracked spheres in order, the depth is that of the first. -/
theorem info_spec {K : Type} (a b c : K) (tracked : List (K × K)) : sphereIds (infoOf a b c tracked) = tracked.map Prod.fst ∧ depthOf (infoOf a b c tracked) = tracked.head?.map Prod.snd := by
  constructor
  · have hl : ((infoOf a b c tracked).length - 3) / 2 = tracked.length := by
      unfold infoOf
      simp
    unfold sphereIds
    rw [hl]
    have hg : ∀ (l : List (K × K)) (j : Nat), (l.flatMap (fun t => [t.1, t.2]))[2 * j]? = (l[j]?).map Prod.fst := by
      intro l
      induction l with
      | nil => intro j; simp
      | cons t l ih =>
        intro j
        cases j with
        | zero => simp
        | succ j =>
          rw [List.flatMap_cons, show 2 * (j + 1) = 2 * j + 1 + 1 by ring]
          simp only [List.cons_append, List.nil_append, List.getElem?_cons_succ, ih]
    have hg' : ∀ j : Nat, (infoOf a b c tracked)[3 + 2 * j]? = (tracked[j]?).map Prod.fst := by
      intro j
      rw [← hg, infoOf, show 3 + 2 * j = 2 * j + 1 + 1 + 1 by ring]
      simp only [List.getElem?_cons_succ]
    have key : ∀ l : List (K × K), (List.range l.length).filterMap (fun j => (l[j]?).map Prod.fst) = l.map Prod.fst := by
      intro l
      induction l with
      | nil => rfl
      | cons t l ih =>
        rw [List.length_cons, List.range_succ_eq_map, List.filterMap_cons]
        simp only [List.getElem?_cons_zero, Option.map_some, List.filterMap_map, List.map_cons]
        rw [← ih]
        rfl
    rw [← key tracked]
    congr 1
    funext j
    exact hg' j
  · cases tracked with
    | nil => rfl
    | cons t l => rfl

/-- A number as `int` of 32 bits. -/
def wrap32 (n : Int) : Int := (n + 2 ^ 31) % 2 ^ 32 - 2 ^ 31

/-- The number of bytes that `from_blob` copies of `n` floats, `util.h:49-66` with `util.cpp:19-25`: the number of elements is an `int`, on a GPU that of bytes too. -/
def copiedBytes (gpu : Bool) (n : Nat) : Int := if gpu then wrap32 (4 * wrap32 n) else 4 * wrap32 n

/-- All is copied exactly for less than 2^31 elements on the host, but only for less than 2^29 on a GPU. -/
theorem copied_all (n : Nat) (hn : n < 2 ^ 32) : (copiedBytes false n = 4 * n ↔ n < 2 ^ 31) ∧ (copiedBytes true n = 4 * n ↔ n < 2 ^ 29) := by
  unfold copiedBytes wrap32
  constructor
  · simp only [Bool.false_eq_true, if_false]
    omega
  · simp only [if_true]
    omega

example : useBatch (1 / 1000000 : ℚ) 2 1 [3, 4] (some [[1, 0], [0, 1]]) = [(some [1, 0], 1), (some [1, 0], 1)] := by norm_num [useBatch]
example : shapeCheck 3 ⟨[5, 3, 7, 9], [5, 3], [5], [3], [3], [3], [3], [], [2], none⟩ = .ok (1, 5, false) := by decide
example : shapeCheck 3 ⟨[2, 5, 3], [2, 5, 3], [2, 5], [2, 3], [2, 3], [2, 3], [2, 3], [2], [2, 2], some [5]⟩ = .error (.arg 13) := by decide
example : sphereIds [0, 0, 0, 7, 100, 8, 200] = [7, 8] := by decide
example : gradients (fun i => i == 7) 3 = true := by decide

end P3D.PulsarTorch
