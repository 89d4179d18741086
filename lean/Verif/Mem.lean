/-
Flat memory buffers with raw (unchecked in C++) writes.  Shared by the models of the C++ kernels:
a write outside the buffer makes the whole run `none` ("undefined behaviour").
-/
import Mathlib.Data.List.Basic
import Mathlib.Data.List.Nodup

namespace P3D.Mem

variable {α : Type*}

/-- One raw store `buf[a] = v`. -/
def write (buf : List α) (w : Nat × α) : Option (List α) :=
  if w.1 < buf.length then some (buf.set w.1 w.2) else none

/-- A sequence of raw stores in program order. -/
def writeAll (buf : List α) (ws : List (Nat × α)) : Option (List α) :=
  ws.foldlM write buf

theorem writeAll_nil (buf : List α) : writeAll buf [] = some buf := rfl

theorem writeAll_cons (buf : List α) (w : Nat × α) (ws) :
    writeAll buf (w :: ws) = (write buf w).bind (fun b => writeAll b ws) := by
  simp only [writeAll, List.foldlM_cons]; rfl

theorem writeAll_append (buf : List α) (ws ws' : List (Nat × α)) :
    writeAll buf (ws ++ ws') = (writeAll buf ws).bind (fun b => writeAll b ws') := by
  simp only [writeAll, List.foldlM_append]; rfl

/-- Some store is out of bounds iff the run is undefined. -/
theorem writeAll_eq_none_iff (buf : List α) (ws : List (Nat × α)) :
    writeAll buf ws = none ↔ ∃ w ∈ ws, buf.length ≤ w.1 := by
  induction ws generalizing buf with
  | nil => simp [writeAll_nil]
  | cons w ws ih =>
    rw [writeAll_cons, write]
    by_cases h : w.1 < buf.length
    · simp only [h, if_true, Option.bind_some, ih, List.length_set, List.mem_cons]
      constructor
      · rintro ⟨w', hw', hl⟩; exact ⟨w', Or.inr hw', hl⟩
      · rintro ⟨w', rfl | hw', hl⟩
        · omega
        · exact ⟨w', hw', hl⟩
    · simp only [h, if_false, Option.bind_none, List.mem_cons, true_iff]
      exact ⟨w, Or.inl rfl, by omega⟩

/-- In-bounds stores to pairwise distinct addresses: the final buffer is determined pointwise. -/
theorem writeAll_ok (buf : List α) (ws : List (Nat × α))
    (hb : ∀ w ∈ ws, w.1 < buf.length) (hnd : (ws.map Prod.fst).Nodup) :
    ∃ out, writeAll buf ws = some out ∧ out.length = buf.length ∧
      (∀ w ∈ ws, out[w.1]? = some w.2) ∧
      (∀ k, k ∉ ws.map Prod.fst → out[k]? = buf[k]?) := by
  induction ws generalizing buf with
  | nil => exact ⟨buf, rfl, rfl, by simp, by simp⟩
  | cons w ws ih =>
    have hw : w.1 < buf.length := hb w (by simp)
    rw [List.map_cons, List.nodup_cons] at hnd
    obtain ⟨out, h1, h2, h3, h4⟩ := ih (buf.set w.1 w.2)
      (fun w' hw' => by simpa using hb w' (by simp [hw'])) hnd.2
    refine ⟨out, ?_, by simpa using h2, ?_, ?_⟩
    · rw [writeAll_cons, write, if_pos hw]; exact h1
    · intro w' hw'
      rcases List.mem_cons.mp hw' with rfl | hw'
      · rw [h4 _ hnd.1]; simp [hw]
      · exact h3 w' hw'
    · intro k hk
      simp only [List.map_cons, List.mem_cons, not_or] at hk
      rw [h4 k hk.2, List.getElem?_set_ne (Ne.symm hk.1)]

end P3D.Mem
