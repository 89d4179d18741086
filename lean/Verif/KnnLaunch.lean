/-
How the GPU search for nearest neighbours is launched: which kernel runs, which thread handles which query, where it writes.

* `csrc/utils/dispatch.cuh:101-357` (`DispatchKernel1D`, `DispatchKernel2D`: a run-time number becomes a template argument)
* `csrc/utils/index_utils.cuh:48-224` (`RegisterIndexUtils`)
* `csrc/knn/knn.cu:18-25`, `42-50` (work of a block), `275-312` (versions), `314-455` (`KNearestNeighborIdxCuda`)

One query is `Knn.knnRowGpu`, the kept neighbours of a thread.  Sizes are natural numbers (the 64-bit arithmetic does not overflow); the 32-bit offsets of `knn.cu:50`, `97`, `168`, `239` are modelled
with wrap-around.  Not modelled: the device, streams, the check of `norm` and of the last dimensions (errors before everything), the gradient kernel (`Verif.KnnBackward`).
-/
import Verif.KnnProps
import Mathlib.Data.List.Basic
import Mathlib.Data.List.Nodup
import Mathlib.Data.List.Dedup
import Mathlib.Logic.Function.Basic
import Mathlib.Tactic.Ring
import Mathlib.Tactic.Linarith

set_option linter.unusedSectionVars false

namespace P3D.KnnLaunch

/-! ## Template recursion -/

/-- `DispatchKernelHelper1D`, `dispatch.cuh:101-138`; `r` is `maxN - curN`.  The result is the template argument of the kernel that is run, if any. -/
def helper1 (N : Nat) : Nat → Nat → Option Nat
  | cur, 0 => if N = cur then some cur else none
  | cur, r + 1 => if cur = N then some cur else if cur < N then helper1 N (cur + 1) r else none

/-- `DispatchKernel1D`, `dispatch.cuh:309-323`. -/
def dispatch1 (minN maxN N : Nat) : Option Nat :=
  if minN ≤ N ∧ N ≤ maxN then helper1 N minN (maxN - minN) else none

/-- `DispatchKernelHelper2D`, `dispatch.cuh:145-305`; `rN`, `rM` are `maxN - curN`, `maxM - curM`. -/
def helper2 (N M : Nat) (cN rN cM rM : Nat) : Option (Nat × Nat) :=
  match rN, rM with
  | 0, 0 => if cN = N ∧ cM = M then some (cN, cM) else none
  | 0, s + 1 => if cN = N ∧ cM = M then some (cN, cM) else helper2 N M cN 0 (cM + 1) s
  | r + 1, 0 => if cN = N ∧ cM = M then some (cN, cM) else helper2 N M (cN + 1) r cM 0
  | r + 1, s + 1 =>
    if cN = N ∧ cM = M then some (cN, cM)
    else if cN < N ∧ cM < M then helper2 N M (cN + 1) r (cM + 1) s
    else if cN < N then helper2 N M (cN + 1) r cM (s + 1)
    else if cM < M then helper2 N M cN (r + 1) (cM + 1) s
    else none
termination_by rN + rM

/-- `DispatchKernel2D`, `dispatch.cuh:325-353`. -/
def dispatch2 (minN maxN minM maxM N M : Nat) : Option (Nat × Nat) :=
  if minN ≤ N ∧ N ≤ maxN ∧ minM ≤ M ∧ M ≤ maxM then helper2 N M minN (maxN - minN) minM (maxM - minM) else none

theorem helper1_spec {N cur r : Nat} (h : cur ≤ N) (h' : N ≤ cur + r) : helper1 N cur r = some N := by
  induction r generalizing cur with
  | zero =>
    have : N = cur := by omega
    simp [helper1, this]
  | succ r ih =>
    unfold helper1
    by_cases he : cur = N
    · simp [he]
    · rw [if_neg he, if_pos (by omega)]
      exact ih (by omega) (by omega)

/-- The kernel runs with exactly the requested argument when it is in the range, and nothing runs (and nothing is reported) otherwise. -/
theorem dispatch1_spec (a b N : Nat) : dispatch1 a b N = if a ≤ N ∧ N ≤ b then some N else none := by
  unfold dispatch1
  split_ifs with h
  · exact helper1_spec h.1 (by omega)
  · rfl

theorem helper2_spec {N M cN rN cM rM : Nat} (h1 : cN ≤ N) (h2 : N ≤ cN + rN) (h3 : cM ≤ M) (h4 : M ≤ cM + rM) : helper2 N M cN rN cM rM = some (N, M) := by
  induction hk : rN + rM using Nat.strong_induction_on generalizing cN rN cM rM with
  | _ k ih =>
    by_cases he : cN = N ∧ cM = M
    · obtain ⟨rfl, rfl⟩ := he
      unfold helper2
      cases rN <;> cases rM <;> simp
    · unfold helper2
      match rN, rM with
      | 0, 0 => exact absurd ⟨by omega, by omega⟩ he
      | 0, s + 1 =>
        dsimp only
        rw [if_neg he]
        exact ih s (by omega) (by omega) (by omega) (by omega) (by omega) (by omega)
      | r + 1, 0 =>
        dsimp only
        rw [if_neg he]
        exact ih r (by omega) (by omega) (by omega) (by omega) (by omega) (by omega)
      | r + 1, s + 1 =>
        dsimp only
        rw [if_neg he]
        by_cases hb : cN < N ∧ cM < M
        · rw [if_pos hb]
          exact ih (r + s) (by omega) (by omega) (by omega) (by omega) (by omega) (by omega)
        · rw [if_neg hb]
          by_cases hn : cN < N
          · rw [if_pos hn]
            exact ih (r + (s + 1)) (by omega) (by omega) (by omega) (by omega) (by omega) (by omega)
          · rw [if_neg hn, if_pos (by omega)]
            exact ih (r + 1 + s) (by omega) (by omega) (by omega) (by omega) (by omega) (by omega)

theorem dispatch2_spec (a b c d N M : Nat) : dispatch2 a b c d N M = if a ≤ N ∧ N ≤ b ∧ c ≤ M ∧ M ≤ d then some (N, M) else none := by
  unfold dispatch2
  split_ifs with h
  · exact helper2_spec h.1 (by omega) h.2.2.1 (by omega)
  · rfl

example : dispatch2 1 8 1 32 3 20 = some (3, 20) ∧ dispatch2 1 8 1 32 9 20 = none := by
  rw [dispatch2_spec, dispatch2_spec]
  decide

/-! ## Register arrays -/

section reg
variable {T : Type*}

/-- `RegisterIndexUtils::get`, `index_utils.cuh:50-120`: the cases `0 … 31`. -/
def regGet (z : T) (arr : List T) (i : Nat) : T :=
  if arr.length ≤ i then z else if i < 32 then arr.getD i z else z

/-- `RegisterIndexUtils::set`, `index_utils.cuh:122-222`. -/
def regSet (arr : List T) (i : Nat) (v : T) : List T :=
  if arr.length ≤ i then arr else if i < 32 then arr.set i v else arr

/-- Arrays of at most 32 entries: plain reading and writing. -/
theorem reg_ok (z : T) (arr : List T) (h : arr.length ≤ 32) (i : Nat) (v : T) : regGet z arr i = arr.getD i z ∧ regSet arr i v = arr.set i v := by
  unfold regGet regSet
  by_cases hl : arr.length ≤ i
  · rw [if_pos hl, if_pos hl, List.set_eq_of_length_le hl]
    simp [List.getD, List.getElem?_eq_none hl]
  · rw [if_neg hl, if_neg hl, if_pos (by omega), if_pos (by omega)]
    exact ⟨rfl, rfl⟩

/-- Longer ones lose what is written from entry 32 on. -/
theorem reg_lost (z : T) (arr : List T) (i : Nat) (h : 32 ≤ i) (v : T) : regGet z (regSet arr i v) i = z ∧ regSet arr i v = arr := by
  unfold regGet regSet
  constructor
  · split_ifs <;> first | rfl | omega
  · split_ifs <;> first | rfl | omega

end reg

/-! ## Versions -/

/-- `KnnCheckVersion`, `knn.cu:275-303`. -/
def checkVersion (v : Int) (D K : Nat) : Bool :=
  if v = 0 then true
  else if v = 1 then decide (1 ≤ D ∧ D ≤ 32)
  else if v = 2 then decide (1 ≤ D ∧ D ≤ 8) && decide (1 ≤ K ∧ K ≤ 32)
  else if v = 3 then decide (1 ≤ D ∧ D ≤ 8) && decide (1 ≤ K ∧ K ≤ 4)
  else false

/-- `ChooseVersion`, `knn.cu:305-312`. -/
def chooseVersion (D K : Nat) : Int :=
  if checkVersion 3 D K then 3 else if checkVersion 2 D K then 2 else if checkVersion 1 D K then 1 else 0

/-- `knn.cu:350-359`: the version used and whether a warning is printed. -/
def pickVersion (v : Int) (D K : Nat) : Int × Bool :=
  if v < 0 then (chooseVersion D K, false)
  else if checkVersion v D K then (v, false)
  else (chooseVersion D K, true)

/-- What happens to a call. -/
inductive Launch where
  /-- `AT_ASSERTM` fails -/
  | invalid
  /-- no kernel: the zeros are returned -/
  | nothing
  /-- the kernel of this version with these dimension and number of neighbours -/
  | kernel (version D K : Nat)
  deriving DecidableEq, Repr

/-- A dispatched kernel. -/
def ofDispatch (v : Nat) : Option (Nat × Nat) → Launch
  | some (d, k) => .kernel v d k
  | none => .nothing

/-- `knn.cu:345-453`: `cells` is `N * P1 * K`. -/
def launch (cells : Nat) (v : Int) (D K : Nat) : Launch :=
  if cells = 0 then .nothing
  else
    let w := (pickVersion v D K).1
    if checkVersion w D K = false then .invalid
    else if w = 0 then .kernel 0 D K
    else if w = 1 then ofDispatch 1 ((dispatch1 1 32 D).map (fun d => (d, K)))
    else if w = 2 then ofDispatch 2 (dispatch2 1 8 1 32 D K)
    else if w = 3 then ofDispatch 3 (dispatch2 1 8 1 4 D K)
    else .nothing

theorem chooseVersion_ok (D K : Nat) : checkVersion (chooseVersion D K) D K = true := by
  unfold chooseVersion
  split_ifs with h3 h2 h1
  · exact h3
  · exact h2
  · exact h1
  · rfl

/-- The chosen version is the greatest usable one. -/
theorem chooseVersion_max (D K : Nat) (v : Int) (h : checkVersion v D K = true) : v ≤ chooseVersion D K := by
  have hv : v = 0 ∨ v = 1 ∨ v = 2 ∨ v = 3 := by
    unfold checkVersion at h
    split_ifs at h with h0 h1 h2 h3
    · exact Or.inl h0
    · exact Or.inr (Or.inl h1)
    · exact Or.inr (Or.inr (Or.inl h2))
    · exact Or.inr (Or.inr (Or.inr h3))
  have hs : (v = 3 ∧ checkVersion 3 D K = true) ∨ (v = 2 ∧ checkVersion 2 D K = true) ∨ (v = 1 ∧ checkVersion 1 D K = true) ∨ v = 0 := by
    rcases hv with rfl | rfl | rfl | rfl
    · exact Or.inr (Or.inr (Or.inr rfl))
    · exact Or.inr (Or.inr (Or.inl ⟨rfl, h⟩))
    · exact Or.inr (Or.inl ⟨rfl, h⟩)
    · exact Or.inl ⟨rfl, h⟩
  unfold chooseVersion
  rcases hs with ⟨rfl, h'⟩ | ⟨rfl, h'⟩ | ⟨rfl, h'⟩ | rfl
  · rw [if_pos h']
  · rw [if_pos h']
    split_ifs <;> omega
  · rw [if_pos h']
    split_ifs <;> omega
  · split_ifs <;> omega

theorem pickVersion_ok (v : Int) (D K : Nat) : checkVersion (pickVersion v D K).1 D K = true := by
  unfold pickVersion
  split_ifs with h h'
  · exact chooseVersion_ok D K
  · exact h'
  · exact chooseVersion_ok D K

/-- A requested version is used when it can be; otherwise the best one, with a warning unless the request was negative. -/
theorem pickVersion_spec (v : Int) (D K : Nat) :
    (checkVersion v D K = true → pickVersion v D K = (v, false)) ∧
    (checkVersion v D K = false → pickVersion v D K = (chooseVersion D K, decide (0 ≤ v))) := by
  have hneg : v < 0 → checkVersion v D K = false := by
    intro h
    unfold checkVersion
    rw [if_neg (by omega), if_neg (by omega), if_neg (by omega), if_neg (by omega)]
  constructor
  · intro h
    unfold pickVersion
    rw [if_neg (by intro hc; rw [hneg hc] at h; cases h), if_pos h]
  · intro h
    unfold pickVersion
    by_cases hc : v < 0
    · rw [if_pos hc]
      simp [not_le.mpr hc]
    · rw [if_neg hc, if_neg (by rw [h]; decide)]
      simp [not_lt.mp hc]

/-- Whatever version is asked for: as soon as there is something to compute, a kernel with the dimension and the number of neighbours of the call is run; the assertion never fails. -/
theorem launch_runs {cells : Nat} (hc : cells ≠ 0) (v : Int) (D K : Nat) : ∃ w : Nat, launch cells v D K = .kernel w D K ∧ (w : Int) = (pickVersion v D K).1 := by
  have ok := pickVersion_ok v D K
  unfold launch
  rw [if_neg hc]
  dsimp only
  rw [if_neg (by rw [ok]; decide)]
  set w := (pickVersion v D K).1 with hw
  have hd := ok
  unfold checkVersion at hd
  by_cases h0 : w = 0
  · exact ⟨0, by rw [if_pos h0], by rw [h0]; rfl⟩
  rw [if_neg h0] at hd ⊢
  by_cases h1 : w = 1
  · rw [if_pos h1] at hd ⊢
    have := of_decide_eq_true hd
    exact ⟨1, by rw [dispatch1_spec, if_pos this]; rfl, by rw [h1]; rfl⟩
  rw [if_neg h1] at hd ⊢
  by_cases h2 : w = 2
  · rw [if_pos h2] at hd ⊢
    have := (Bool.and_eq_true _ _).mp hd
    have ha := of_decide_eq_true this.1
    have hb := of_decide_eq_true this.2
    exact ⟨2, by rw [dispatch2_spec, if_pos ⟨ha.1, ha.2, hb.1, hb.2⟩]; rfl, by rw [h2]; rfl⟩
  rw [if_neg h2] at hd ⊢
  by_cases h3 : w = 3
  · rw [if_pos h3] at hd ⊢
    have := (Bool.and_eq_true _ _).mp hd
    have ha := of_decide_eq_true this.1
    have hb := of_decide_eq_true this.2
    exact ⟨3, by rw [dispatch2_spec, if_pos ⟨ha.1, ha.2, hb.1, hb.2⟩]; rfl, by rw [h3]; rfl⟩
  rw [if_neg h3] at hd
  cases hd

/-- The default (`version = -1`): small problems use registers, larger ones memory, and any dimension and number works. -/
theorem launch_default (cells : Nat) (hc : cells ≠ 0) (D K : Nat) :
    launch cells (-1) D K =
      if 1 ≤ D ∧ D ≤ 8 ∧ 1 ≤ K ∧ K ≤ 4 then .kernel 3 D K
      else if 1 ≤ D ∧ D ≤ 8 ∧ 1 ≤ K ∧ K ≤ 32 then .kernel 2 D K
      else if 1 ≤ D ∧ D ≤ 32 then .kernel 1 D K
      else .kernel 0 D K := by
  obtain ⟨w, h1, h2⟩ := launch_runs hc (-1) D K
  rw [h1]
  have hp : (pickVersion (-1) D K).1 = chooseVersion D K := by
    unfold pickVersion
    rw [if_pos (by decide)]
  rw [hp] at h2
  have e3 : checkVersion 3 D K = true ↔ 1 ≤ D ∧ D ≤ 8 ∧ 1 ≤ K ∧ K ≤ 4 := by
    simp [checkVersion, and_assoc]
  have e2 : checkVersion 2 D K = true ↔ 1 ≤ D ∧ D ≤ 8 ∧ 1 ≤ K ∧ K ≤ 32 := by
    simp [checkVersion, and_assoc]
  have e1 : checkVersion 1 D K = true ↔ 1 ≤ D ∧ D ≤ 32 := by
    simp [checkVersion]
  unfold chooseVersion at h2
  simp only [e1, e2, e3] at h2
  split_ifs at h2 ⊢ <;> (congr 1; omega)

example : launch 100 (-1) 3 4 = .kernel 3 3 4 ∧ launch 100 (-1) 3 5 = .kernel 2 3 5 ∧ launch 100 (-1) 3 40 = .kernel 1 3 40 ∧ launch 100 (-1) 64 1 = .kernel 0 64 1 := by
  refine ⟨?_, ?_, ?_, ?_⟩ <;> (rw [launch_default _ (by decide)]; rfl)

/-! ## Who computes what -/

/-- The loop `for (c = b; c < todo; c += G)`, `knn.cu:44`; at least one block. -/
def strided (G todo c : Nat) : List Nat :=
  if _h : c < todo ∧ 0 < G then c :: strided G todo (c + G) else []
termination_by todo - c
decreasing_by omega

/-- `chunks_per_cloud`, `knn.cu:42`. -/
def perCloud (T P1 : Nat) : Nat := 1 + (P1 - 1) / T

/-- The queries of thread `t` in block `b`, in order (`knn.cu:44-49`): batch element and point. -/
def threadWork (G T N P1 : Nat) (len1 : Nat → Nat) (b t : Nat) : List (Nat × Nat) :=
  (strided G (N * perCloud T P1) b).filterMap (fun c =>
    if len1 (c / perCloud T P1) ≤ T * (c % perCloud T P1) + t then none
    else some (c / perCloud T P1, T * (c % perCloud T P1) + t))

theorem strided_ge {G todo c x : Nat} (h : x ∈ strided G todo c) : c ≤ x := by
  induction hk : todo - c using Nat.strong_induction_on generalizing c with
  | _ k ih =>
    unfold strided at h
    split_ifs at h with hc
    · rcases List.mem_cons.mp h with rfl | h'
      · exact le_refl _
      · have := ih (todo - (c + G)) (by omega) h' rfl
        omega
    · cases h

theorem mem_strided {G todo c x : Nat} (hG : 0 < G) : x ∈ strided G todo c ↔ c ≤ x ∧ x < todo ∧ x % G = c % G := by
  induction hk : todo - c using Nat.strong_induction_on generalizing c with
  | _ k ih =>
    unfold strided
    split_ifs with hc
    · rw [List.mem_cons, ih (todo - (c + G)) (by omega) rfl, Nat.add_mod_right]
      constructor
      · rintro (rfl | ⟨h1, h2, h3⟩)
        · exact ⟨le_refl _, hc.1, rfl⟩
        · exact ⟨by omega, h2, h3⟩
      · rintro ⟨h1, h2, h3⟩
        by_cases he : x = c
        · exact Or.inl he
        · refine Or.inr ⟨?_, h2, h3⟩
          by_contra hlt
          have e1 := Nat.div_add_mod x G
          have e2 := Nat.div_add_mod c G
          rw [h3] at e1
          have h5 : x / G ≤ c / G := by
            by_contra hgt
            have : G * (c / G + 1) ≤ G * (x / G) := Nat.mul_le_mul_left G (by omega)
            rw [Nat.mul_add, Nat.mul_one] at this
            omega
          have : G * (x / G) ≤ G * (c / G) := Nat.mul_le_mul_left G h5
          omega
    · constructor
      · intro h
        cases h
      · rintro ⟨h1, h2, -⟩
        omega

theorem strided_nodup (G todo c : Nat) : (strided G todo c).Nodup := by
  induction hk : todo - c using Nat.strong_induction_on generalizing c with
  | _ k ih =>
    unfold strided
    split_ifs with hc
    · refine List.nodup_cons.mpr ⟨fun h => ?_, ih (todo - (c + G)) (by omega) (c + G) rfl⟩
      have := strided_ge h
      omega
    · exact List.nodup_nil

theorem chunk_div {q C r : Nat} (hr : r < C) : (q * C + r) / C = q ∧ (q * C + r) % C = r := by
  constructor
  · rw [Nat.mul_comm, Nat.mul_add_div (by omega), Nat.div_eq_of_lt hr, Nat.add_zero]
  · rw [Nat.mul_comm, Nat.mul_add_mod, Nat.mod_eq_of_lt hr]

/-- The queries of a thread, exactly: its remainder modulo the block size, its block's chunks. -/
theorem mem_threadWork {G T N P1 b t n p : Nat} {len1 : Nat → Nat} (hG : 0 < G) (hb : b < G) (ht : t < T) :
    (n, p) ∈ threadWork G T N P1 len1 b t ↔
      n < N ∧ p < len1 n ∧ p < T * perCloud T P1 ∧ p % T = t ∧ (n * perCloud T P1 + p / T) % G = b := by
  have hT : 0 < T := by omega
  have hC : 0 < perCloud T P1 := Nat.lt_of_lt_of_le Nat.one_pos (Nat.le_add_right 1 _)
  unfold threadWork
  set C := perCloud T P1 with hCd
  simp only [List.mem_filterMap]
  constructor
  · rintro ⟨c, hc, he⟩
    rw [mem_strided hG, Nat.mod_eq_of_lt hb] at hc
    obtain ⟨-, h2, h3⟩ := hc
    split_ifs at he with hl
    simp only [Option.some.injEq, Prod.mk.injEq] at he
    obtain ⟨rfl, rfl⟩ := he
    have hm : c % C < C := Nat.mod_lt _ hC
    refine ⟨?_, by omega, ?_, ?_, ?_⟩
    · exact (Nat.div_lt_iff_lt_mul hC).mpr h2
    · calc T * (c % C) + t < T * (c % C) + T := by omega
        _ = T * (c % C + 1) := by ring
        _ ≤ T * C := Nat.mul_le_mul_left T (by omega)
    · rw [Nat.mul_add_mod, Nat.mod_eq_of_lt ht]
    · rw [Nat.mul_add_div hT, Nat.div_eq_of_lt ht, Nat.add_zero, Nat.mul_comm, Nat.div_add_mod]
      exact h3
  · rintro ⟨hn, hp, hpc, rfl, hbk⟩
    have hq : p / T < C := (Nat.div_lt_iff_lt_mul hT).mpr (by rw [Nat.mul_comm]; exact hpc)
    obtain ⟨e1, e2⟩ := chunk_div (q := n) hq
    refine ⟨n * C + p / T, ?_, ?_⟩
    · rw [mem_strided hG, Nat.mod_eq_of_lt hb]
      refine ⟨?_, ?_, hbk⟩
      · rw [← hbk]
        exact Nat.mod_le _ _
      · calc n * C + p / T < n * C + C := by omega
          _ = (n + 1) * C := by ring
          _ ≤ N * C := Nat.mul_le_mul_right C hn
    · rw [e1, e2, Nat.div_add_mod, if_neg (by omega)]

theorem covers {T P1 p : Nat} (hT : 0 < T) (hp : p < P1) : p < T * perCloud T P1 := by
  unfold perCloud
  have h := Nat.div_add_mod (P1 - 1) T
  have h' := Nat.mod_lt (P1 - 1) hT
  rw [Nat.mul_add, Nat.mul_one]
  omega

/-- Every query of every batch element is handled by exactly one thread of one block. -/
theorem work_once {G T N P1 n p : Nat} {len1 : Nat → Nat} (hG : 0 < G) (hT : 0 < T) (hlen : ∀ m, len1 m ≤ P1) (hn : n < N) (hp : p < len1 n) :
    ∃! bt : Nat × Nat, bt.1 < G ∧ bt.2 < T ∧ (n, p) ∈ threadWork G T N P1 len1 bt.1 bt.2 := by
  refine ⟨((n * perCloud T P1 + p / T) % G, p % T), ⟨Nat.mod_lt _ hG, Nat.mod_lt _ hT, ?_⟩, ?_⟩
  · rw [mem_threadWork hG (Nat.mod_lt _ hG) (Nat.mod_lt _ hT)]
    exact ⟨hn, hp, covers hT (lt_of_lt_of_le hp (hlen n)), rfl, rfl⟩
  · rintro ⟨b, t⟩ ⟨hb, ht, hm⟩
    rw [mem_threadWork hG hb ht] at hm
    obtain ⟨-, -, -, h4, h5⟩ := hm
    exact Prod.ext h5.symm h4.symm

/-- A thread never meets the same query twice. -/
theorem threadWork_nodup {G T N P1 b t : Nat} {len1 : Nat → Nat} (ht : t < T) : (threadWork G T N P1 len1 b t).Nodup := by
  have hC : 0 < perCloud T P1 := Nat.lt_of_lt_of_le Nat.one_pos (Nat.le_add_right 1 _)
  unfold threadWork
  set C := perCloud T P1
  refine (strided_nodup G (N * C) b).filterMap ?_
  intro c c' x hx hx'
  simp only [Option.mem_def] at hx hx'
  split_ifs at hx with h1
  split_ifs at hx' with h2
  simp only [Option.some.injEq] at hx hx'
  rw [← hx'] at hx
  simp only [Prod.mk.injEq] at hx
  obtain ⟨e1, e2⟩ := hx
  have e3 : T * (c % C) = T * (c' % C) := by omega
  have e4 : c % C = c' % C := Nat.eq_of_mul_eq_mul_left (by omega) e3
  rw [← Nat.div_add_mod c C, ← Nat.div_add_mod c' C, e1, e4]

/-- All the work of a launch. -/
def allWork (G T N P1 : Nat) (len1 : Nat → Nat) : List (Nat × Nat) :=
  (List.range G).flatMap (fun b => (List.range T).flatMap (fun t => threadWork G T N P1 len1 b t))

/-- All queries. -/
def queries (N : Nat) (len1 : Nat → Nat) : List (Nat × Nat) :=
  (List.range N).flatMap (fun n => (List.range (len1 n)).map (fun p => (n, p)))

theorem mem_allWork {G T N P1 n p : Nat} {len1 : Nat → Nat} (hG : 0 < G) (hT : 0 < T) :
    (n, p) ∈ allWork G T N P1 len1 ↔ n < N ∧ p < len1 n ∧ p < T * perCloud T P1 := by
  unfold allWork
  simp only [List.mem_flatMap, List.mem_range]
  constructor
  · rintro ⟨b, hb, t, ht, h⟩
    rw [mem_threadWork hG hb ht] at h
    exact ⟨h.1, h.2.1, h.2.2.1⟩
  · rintro ⟨h1, h2, h3⟩
    refine ⟨(n * perCloud T P1 + p / T) % G, Nat.mod_lt _ hG, p % T, Nat.mod_lt _ hT, ?_⟩
    rw [mem_threadWork hG (Nat.mod_lt _ hG) (Nat.mod_lt _ hT)]
    exact ⟨h1, h2, h3, rfl, rfl⟩

theorem allWork_nodup {G T N P1 : Nat} {len1 : Nat → Nat} (hG : 0 < G) : (allWork G T N P1 len1).Nodup := by
  unfold allWork
  rw [List.nodup_flatMap]
  constructor
  · intro b hb
    rw [List.mem_range] at hb
    rw [List.nodup_flatMap]
    constructor
    · intro t ht
      exact threadWork_nodup (List.mem_range.mp ht)
    · refine (List.nodup_range).imp_of_mem ?_
      rintro t t' ht ht' hne ⟨n, p⟩ h1 h2
      rw [mem_threadWork hG hb (List.mem_range.mp ht)] at h1
      rw [mem_threadWork hG hb (List.mem_range.mp ht')] at h2
      exact hne (h1.2.2.2.1.symm.trans h2.2.2.2.1)
  · refine (List.nodup_range).imp_of_mem ?_
    rintro b b' hb hb' hne ⟨n, p⟩ h1 h2
    simp only [List.mem_flatMap, List.mem_range] at h1 h2 hb hb'
    obtain ⟨t, ht, h1⟩ := h1
    obtain ⟨t', ht', h2⟩ := h2
    rw [mem_threadWork hG hb ht] at h1
    rw [mem_threadWork hG hb' ht'] at h2
    exact hne (h1.2.2.2.2.symm.trans h2.2.2.2.2)

theorem mem_queries {N n p : Nat} {len1 : Nat → Nat} : (n, p) ∈ queries N len1 ↔ n < N ∧ p < len1 n := by
  unfold queries
  simp only [List.mem_flatMap, List.mem_range, List.mem_map, Prod.mk.injEq]
  constructor
  · rintro ⟨m, hm, q, hq, rfl, rfl⟩
    exact ⟨hm, hq⟩
  · rintro ⟨h1, h2⟩
    exact ⟨n, h1, p, h2, rfl, rfl⟩

theorem queries_nodup (N : Nat) (len1 : Nat → Nat) : (queries N len1).Nodup := by
  unfold queries
  rw [List.nodup_flatMap]
  constructor
  · intro n _
    exact (List.nodup_range).map (fun a b h => (Prod.mk.inj h).2)
  · refine (List.nodup_range).imp ?_
    rintro a b hne ⟨n, p⟩ h1 h2
    simp only [List.mem_map, Prod.mk.injEq] at h1 h2
    obtain ⟨_, _, e1, _⟩ := h1
    obtain ⟨_, _, e2, _⟩ := h2
    exact hne (e1.trans e2.symm)

/-- The launch computes exactly the queries, each once, for every number of blocks and threads. -/
theorem allWork_perm {G T N P1 : Nat} {len1 : Nat → Nat} (hG : 0 < G) (hT : 0 < T) (hlen : ∀ m, len1 m ≤ P1) : (allWork G T N P1 len1).Perm (queries N len1) := by
  rw [List.perm_ext_iff_of_nodup (allWork_nodup hG) (queries_nodup N len1)]
  rintro ⟨n, p⟩
  rw [mem_allWork hG hT, mem_queries]
  constructor
  · rintro ⟨h1, h2, -⟩
    exact ⟨h1, h2⟩
  · rintro ⟨h1, h2⟩
    exact ⟨h1, h2, covers hT (lt_of_lt_of_le h2 (hlen n))⟩

/-- Lengths greater than the padded size are not checked: the points after the last one, up to the end of the last chunk, are computed too (`n`'s row numbers run into those of `n + 1`). -/
theorem too_long {G T N P1 n p : Nat} {len1 : Nat → Nat} (hG : 0 < G) (hT : 0 < T) (hn : n < N) (h1 : p < len1 n) (h3 : p < T * perCloud T P1) :
    (n, p) ∈ allWork G T N P1 len1 := (mem_allWork hG hT).mpr ⟨hn, h1, h3⟩

example : (0, 3) ∈ allWork 2 4 2 3 (fun _ => 5) := too_long (by decide) (by decide) (by decide) (by decide) (by decide)

/-! ## Where it is written -/

/-- The cell of neighbour `k`: `n * P1 * K + p1 * K + k`, `knn.cu:50`, `176-177`. -/
def cell (P1 K n p k : Nat) : Nat := n * P1 * K + p * K + k

theorem cell_row {P1 K n p k : Nat} : cell P1 K n p k = (n * P1 + p) * K + k := by
  unfold cell
  ring

/-- Different neighbours of different queries go to different cells. -/
theorem cell_inj {P1 K n p k n' p' k' : Nat} (hp : p < P1) (hp' : p' < P1) (hk : k < K) (hk' : k' < K) (h : cell P1 K n p k = cell P1 K n' p' k') :
    n = n' ∧ p = p' ∧ k = k' := by
  rw [cell_row, cell_row] at h
  have a1 := chunk_div (q := n * P1 + p) hk
  have a2 := chunk_div (q := n' * P1 + p') hk'
  rw [h] at a1
  have e1 : n * P1 + p = n' * P1 + p' := a1.1.symm.trans a2.1
  have e2 : k = k' := a1.2.symm.trans a2.2
  have b1 := chunk_div (q := n) hp
  have b2 := chunk_div (q := n') hp'
  rw [e1] at b1
  exact ⟨b1.1.symm.trans b2.1, b1.2.symm.trans b2.2, e2⟩

theorem cell_lt {N P1 K n p k : Nat} (hn : n < N) (hp : p < P1) (hk : k < K) : cell P1 K n p k < N * P1 * K := by
  rw [cell_row]
  have h1 : n * P1 + p < N * P1 := by
    calc n * P1 + p < n * P1 + P1 := by omega
      _ = (n + 1) * P1 := by ring
      _ ≤ N * P1 := Nat.mul_le_mul_right P1 hn
  calc (n * P1 + p) * K + k < (n * P1 + p) * K + K := by omega
    _ = (n * P1 + p + 1) * K := by ring
    _ ≤ N * P1 * K := Nat.mul_le_mul_right K h1

/-- `int offset = …`: conversion to 32 bits. -/
def toInt32 (x : Nat) : Int := Int.bmod (x : Int) (2 ^ 32)

/-- The offset of versions 0 and 1 (`knn.cu:50`, `97`) and the reading offset of versions 2 and 3 (`knn.cu:168`, `239`) are right exactly below `2 ^ 31`. -/
theorem toInt32_ok_iff (x : Nat) : toInt32 x = x ↔ x < 2 ^ 31 := by
  unfold toInt32
  rw [Int.bmod_def]
  constructor
  · intro h
    split_ifs at h <;> omega
  · intro h
    split_ifs <;> omega

/-- All rows start in the right place exactly when the start of the last one is below `2 ^ 31`. -/
theorem offsets_ok_iff {N P1 K : Nat} (hN : 0 < N) (hP : 0 < P1) :
    (∀ n < N, ∀ p < P1, toInt32 (cell P1 K n p 0) = cell P1 K n p 0) ↔ (N * P1 - 1) * K < 2 ^ 31 := by
  have hmax : cell P1 K (N - 1) (P1 - 1) 0 = (N * P1 - 1) * K := by
    rw [cell_row, Nat.add_zero]
    congr 1
    obtain ⟨N, rfl⟩ := Nat.exists_eq_add_of_lt hN
    obtain ⟨P1, rfl⟩ := Nat.exists_eq_add_of_lt hP
    simp only [Nat.zero_add, Nat.add_sub_cancel]
    have : (N + 1) * (P1 + 1) = N * (P1 + 1) + P1 + 1 := by ring
    omega
  constructor
  · intro h
    have := h (N - 1) (by omega) (P1 - 1) (by omega)
    rw [toInt32_ok_iff, hmax] at this
    exact this
  · intro h n hn p hp
    rw [toInt32_ok_iff]
    refine lt_of_le_of_lt ?_ h
    rw [cell_row, Nat.add_zero]
    apply Nat.mul_le_mul_right
    have h1 : n * P1 + p < N * P1 := by
      calc n * P1 + p < n * P1 + P1 := by omega
        _ = (n + 1) * P1 := by ring
        _ ≤ N * P1 := Nat.mul_le_mul_right P1 hn
    omega

/-- Thirty-two neighbours of seventy million points (version 0 or 1): the offset of the last row is negative. -/
example : toInt32 (cell 70000000 32 0 69999999 0) = -2054967328 := by
  decide

/-! ## The result of a launch -/

section result
variable {R : Type*}

/-- The rows of the output after the writes of `ws`, executed in that order, into zeros: row `n * P1 + p` gets the neighbours of the query. -/
def rowsAfter (P1 : Nat) (zero : R) (row : Nat → Nat → R) (ws : List (Nat × Nat)) : Nat → R :=
  ws.foldl (fun f np => Function.update f (np.1 * P1 + np.2) (row np.1 np.2)) (fun _ => zero)

theorem foldl_update (P1 : Nat) (row : Nat → Nat → R) (ws : List (Nat × Nat)) (f : Nat → R) (r : Nat) :
    (r ∉ ws.map (fun np => np.1 * P1 + np.2) → ws.foldl (fun f np => Function.update f (np.1 * P1 + np.2) (row np.1 np.2)) f r = f r) := by
  induction ws generalizing f with
  | nil =>
    intro _
    rfl
  | cons w ws ih =>
    intro h
    simp only [List.map_cons, List.mem_cons, not_or] at h
    rw [List.foldl_cons, ih _ h.2, Function.update_of_ne h.1]

/-- In whatever order the threads run: the row of every query holds its neighbours, the other rows are zero. -/
theorem rows_spec {G T N P1 : Nat} {len1 : Nat → Nat} (hG : 0 < G) (hT : 0 < T) (hlen : ∀ m, len1 m ≤ P1) (zero : R) (row : Nat → Nat → R) {ws : List (Nat × Nat)}
    (hws : ws.Perm (allWork G T N P1 len1)) {n p : Nat} (hn : n < N) (hp : p < P1) :
    rowsAfter P1 zero row ws (n * P1 + p) = if p < len1 n then row n p else zero := by
  have hinj : ∀ {a b c d : Nat}, b < P1 → d < P1 → a * P1 + b = c * P1 + d → a = c ∧ b = d := by
    intro a b c d hb hd h
    have h1 := chunk_div (q := a) hb
    have h2 := chunk_div (q := c) hd
    rw [h] at h1
    exact ⟨h1.1.symm.trans h2.1, h1.2.symm.trans h2.2⟩
  have hmem : ∀ {a b : Nat}, (a, b) ∈ ws ↔ a < N ∧ b < len1 a := by
    intro a b
    rw [(hws.trans (allWork_perm hG hT hlen)).mem_iff, mem_queries]
  unfold rowsAfter
  by_cases hq : p < len1 n
  · rw [if_pos hq]
    have hm : (n, p) ∈ ws := hmem.mpr ⟨hn, hq⟩
    have hnd : ws.Nodup := (hws.trans (allWork_perm hG hT hlen)).nodup_iff.mpr (queries_nodup N len1)
    obtain ⟨l1, l2, rfl⟩ := List.append_of_mem hm
    rw [List.foldl_append, List.foldl_cons, foldl_update, Function.update_self]
    intro hc
    obtain ⟨⟨a, b⟩, hab, he⟩ := List.mem_map.mp hc
    have hb : b < P1 := lt_of_lt_of_le (hmem.mp (List.mem_append_right _ (List.mem_cons_of_mem _ hab))).2 (hlen a)
    obtain ⟨rfl, rfl⟩ := hinj hb hp he
    have := (List.nodup_append.mp hnd).2.1
    exact (List.nodup_cons.mp this).1 hab
  · rw [if_neg hq, foldl_update]
    intro hc
    obtain ⟨⟨a, b⟩, hab, he⟩ := List.mem_map.mp hc
    have hb := (hmem.mp hab).2
    obtain ⟨rfl, rfl⟩ := hinj (lt_of_lt_of_le hb (hlen a)) hp he
    exact hq hb

end result

/-- The launch as a whole: with the rows of `Knn.knnRowGpu`, every query gets `K` nearest neighbours (all of them if there are fewer), in some order, whatever the schedule. -/
theorem launch_nearest {R : Type*} [Field R] [LinearOrder R] {G T N P1 K : Nat} {len1 : Nat → Nat} (hG : 0 < G) (hT : 0 < T) (hK : 0 < K) (hlen : ∀ m, len1 m ≤ P1)
    (ds : Nat → Nat → List R) {ws : List (Nat × Nat)} (hws : ws.Perm (allWork G T N P1 len1)) {n p : Nat} (hn : n < N) (hp : p < len1 n) :
    ∃ js row, rowsAfter P1 none (fun n p => Knn.knnRowGpu K (ds n p)) ws (n * P1 + p) = some row ∧ Knn.Nearest K (ds n p) js ∧ Knn.IsRow K (ds n p) js row := by
  rw [rows_spec hG hT hlen none _ hws hn (lt_of_lt_of_le hp (hlen n)), if_pos hp]
  exact Knn.knnRowGpu_nearest hK (ds n p)

end P3D.KnnLaunch
