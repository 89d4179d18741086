/-
Plain stores `t[i] = v` into a tensor by several threads: if the value stored is a function of the
index, the result does not depend on the order (and repeated stores do no harm).
-/
import Mathlib.Data.List.Perm.Basic
import Mathlib.Logic.Function.Basic

namespace P3D.Store

variable {ι R : Type*} [DecidableEq ι]

/-- Stores in program order into a tensor with contents `init`. -/
def storeAll (init : ι → R) (ws : List (ι × R)) : ι → R :=
  ws.foldl (fun t w => Function.update t w.1 w.2) init

theorem storeAll_fn (init : ι → R) (v : ι → R) (ws : List (ι × R))
    (h : ∀ w ∈ ws, w.2 = v w.1) (i : ι) :
    storeAll init ws i = if i ∈ ws.map Prod.fst then v i else init i := by
  unfold storeAll
  induction ws generalizing init with
  | nil => simp
  | cons w ws ih =>
    rw [List.foldl_cons, ih _ (fun w' hw' => h w' (by simp [hw']))]
    by_cases h1 : i ∈ ws.map Prod.fst
    · simp [h1]
    · by_cases h2 : w.1 = i
      · subst h2; simp [h w (by simp)]
      · have h3 : ¬ i = w.1 := fun e => h2 e.symm
        rw [if_neg h1, Function.update_of_ne h3, if_neg (by simp only [List.map_cons, List.mem_cons]; tauto)]

/-- Two runs storing the same function on the same set of indices agree. -/
theorem storeAll_eq (init : ι → R) (v : ι → R) (ws ws' : List (ι × R))
    (h : ∀ w ∈ ws, w.2 = v w.1) (h' : ∀ w ∈ ws', w.2 = v w.1)
    (hk : ∀ i, i ∈ ws.map Prod.fst ↔ i ∈ ws'.map Prod.fst) :
    storeAll init ws = storeAll init ws' := by
  funext i
  rw [storeAll_fn init v ws h, storeAll_fn init v ws' h']
  by_cases h1 : i ∈ ws.map Prod.fst
  · rw [if_pos h1, if_pos ((hk i).mp h1)]
  · rw [if_neg h1, if_neg (fun h2 => h1 ((hk i).mpr h2))]

example : storeAll (fun _ => 0) [(1, 5), (2, 7), (1, 5)] 1 = 5 := by decide

end P3D.Store
