/-
The closest-element search of the point/mesh distances: `HullHullDistanceForwardCpu`, `csrc/point_mesh/point_mesh_cpu.cpp:154-213`,
and `DistanceForwardKernel`, `csrc/point_mesh/point_mesh_cuda.cu:21-135`, with `WarpReduceMin`, `csrc/utils/warp_reduce.cuh:28-82`.

Rows of the packed tensors `as` and `bs` are given by their index; `d a b` is the distance of row `a` of `as` and row `b` of `bs`
(`PointMeshGrad.lean` takes `d` from `Geometry.lean`).  Distances are elements of a linear order, `big` is the largest finite
`float`; NaN is not modelled.  Within a warp the lanes of one step of `WarpReduceMin` all read before any of them writes (the
kernel has no barrier between the reads and the writes of a step).
-/
import Verif.Chunks
import Verif.Store
import Mathlib.Order.Basic
import Mathlib.Algebra.BigOperators.Group.List.Basic
import Mathlib.Tactic.Linarith

set_option linter.unusedSectionVars false

namespace P3D.PointMesh

open Chunks Store

variable {K : Type} [LinearOrder K]

/-- First packed row of each batch element: `cloud_to_packed_first_idx`, `mesh_to_faces_packed_first_idx` and
`mesh_to_edges_packed_first_idx` for element sizes `l`. -/
def firstIdx (l : List Nat) : List Nat := (List.range l.length).map fun n => (l.take n).sum

/-! ### CPU -/

/-- point_mesh_cpu.cpp:183-196: the scan over the candidate rows `js`. -/
def scanCpu (d : Nat → K) (big : K) (js : List Nat) : K × Nat :=
  js.foldl (fun m j => if d j ≤ m.1 then (d j, j) else m) (big, 0)

/-- The loop variables of point_mesh_cpu.cpp:179-181. -/
structure St where
  batch : Nat
  aEnd : Nat
  bStart : Nat
  bEnd : Nat
deriving DecidableEq

/-- point_mesh_cpu.cpp:183-193.  `numeric_limits<int64_t>::max()` is replaced by `aN`, which the row index does not reach either.
The accesses `first_idx[batch_idx]` are inside the tensor unless there are rows but no batch elements. -/
def step (aFirst bFirst : List Nat) (aN bN : Nat) (st : St) (a : Nat) : St :=
  if a = st.aEnd then
    if st.batch + 1 = aFirst.length then ⟨st.batch + 1, aN, st.bEnd, bN⟩
    else ⟨st.batch + 1, aFirst.getD (st.batch + 1) 0, st.bEnd, bFirst.getD (st.batch + 1) 0⟩
  else st

/-- point_mesh_cpu.cpp:182-210: the loop over the rows of `as`. -/
def go (aFirst bFirst : List Nat) (aN bN : Nat) (d : Nat → Nat → K) (big : K) : List Nat → St → List (K × Nat)
  | [], _ => []
  | a :: l, st =>
    let st := step aFirst bFirst aN bN st a
    scanCpu (d a) big (List.range' st.bStart (st.bEnd - st.bStart)) :: go aFirst bFirst aN bN d big l st

/-- `HullHullDistanceForwardCpu` on packed batches with element sizes `na`, `nb`: distances and indices. -/
def cpuForward (na nb : List Nat) (d : Nat → Nat → K) (big : K) : List (K × Nat) :=
  go (firstIdx na) (firstIdx nb) na.sum nb.sum d big (List.range na.sum) ⟨0, 0, 0, 0⟩

/-! ### CUDA -/

/-- point_mesh_cuda.cu:84-110: the loop of thread `tid` of a block of `T` threads over its candidates. -/
def lane (d : Nat → K) (big : K) (lo cnt T tid : Nat) : K × Nat :=
  (strideLoop tid T cnt).foldl (fun m j =>
    let dist := d (lo + j)
    let md := if j = tid then dist else m.1
    (if dist ≤ md then dist else md, if dist ≤ md then lo + j else m.2)) (big, 0)

/-- One reduction step with stride `s`, executed by the threads below `lim`: point_mesh_cuda.cu:116-124 with `lim = s`,
warp_reduce.cuh:28-82 with `lim = 32`. -/
def reduceStep (lim s : Nat) (m : Nat → K × Nat) : Nat → K × Nat :=
  fun tid => if tid < lim ∧ (m tid).1 > (m (tid + s)).1 then m (tid + s) else m tid

/-- point_mesh_cuda.cu:115-129 for 128 threads (line 189): one step in shared memory (64 > 32), six in the warp. -/
def reduceAll (m : Nat → K × Nat) : Nat → K × Nat :=
  reduceStep 32 1 (reduceStep 32 2 (reduceStep 32 4 (reduceStep 32 8 (reduceStep 32 16 (reduceStep 32 32 (reduceStep 64 64 m))))))

/-- point_mesh_cuda.cu:42-135: the result written by block (`i`, `n`). -/
def block (nb : List Nat) (d : Nat → Nat → K) (big : K) (n a : Nat) : K × Nat :=
  let startt := (firstIdx nb).getD n 0
  let endt := if n + 1 < nb.length then (firstIdx nb).getD (n + 1) 0 else nb.sum
  reduceAll (lane (d a) big startt (endt - startt) 128) 0

/-- The writes of all blocks of the grid `(max_objects, batch_size)`, point_mesh_cuda.cu:190, in one order. -/
def cudaWrites (na nb : List Nat) (maxObjects : Nat) (d : Nat → Nat → K) (big : K) : List (Nat × (K × Nat)) :=
  (List.range na.length).flatMap fun n => (List.range maxObjects).flatMap fun i =>
    let starto := (firstIdx na).getD n 0
    let endo := if n + 1 < na.length then (firstIdx na).getD (n + 1) 0 else na.sum
    if i < endo - starto then [(starto + i, block nb d big n (starto + i))] else []

/-! ### Specification -/

/-- First row of element `n` in the packed tensor. -/
def off (l : List Nat) (n : Nat) : Nat := (l.take n).sum

/-- `r` is the distance to, and the index of, a closest row in `[lo, hi)`; `(big, 0)` if there is none. -/
def Closest (d : Nat → K) (big : K) (lo hi : Nat) (r : K × Nat) : Prop :=
  (hi ≤ lo ∧ r = (big, 0)) ∨
  (lo ≤ r.2 ∧ r.2 < hi ∧ r.1 = d r.2 ∧ ∀ j, lo ≤ j → j < hi → d r.2 ≤ d j)

theorem off_succ {l : List Nat} {n : Nat} (h : n < l.length) : off l (n + 1) = off l n + l[n] := by
  unfold off
  rw [List.take_add_one, List.getElem?_eq_getElem h, List.sum_append]
  simp

theorem off_le {l : List Nat} {m n : Nat} (h : m ≤ n) : off l m ≤ off l n := by
  induction n, h using Nat.le_induction with
  | base => exact le_rfl
  | succ n _ ih =>
    rcases lt_or_ge n l.length with h | h
    · rw [off_succ h]; omega
    · have e : off l (n + 1) = off l n := by unfold off; rw [List.take_of_length_le h, List.take_of_length_le (by omega)]
      rw [e]; exact ih

theorem off_length (l : List Nat) : off l l.length = l.sum := by unfold off; rw [List.take_length]

theorem off_le_sum (l : List Nat) (n : Nat) : off l n ≤ l.sum := by
  rcases le_total n l.length with h | h
  · rw [← off_length]; exact off_le h
  · unfold off; rw [List.take_of_length_le h]

theorem firstIdx_length (l : List Nat) : (firstIdx l).length = l.length := by simp [firstIdx]

theorem firstIdx_getD {l : List Nat} {n : Nat} (h : n < l.length) : (firstIdx l).getD n 0 = off l n := by
  simp [firstIdx, off, List.getD_eq_getElem?_getD, List.getElem?_range h]

/-- The row range of element `n`, as the kernel computes it. -/
theorem end_eq {l : List Nat} {n : Nat} (h : n < l.length) :
    (if n + 1 < l.length then (firstIdx l).getD (n + 1) 0 else l.sum) = off l (n + 1) := by
  split
  · next h1 => exact firstIdx_getD h1
  · next h1 => rw [← off_length]; congr 1; omega

/-- A packed row belongs to one element. -/
theorem off_unique {l : List Nat} {m n a : Nat} (hm : off l m ≤ a) (hm' : a < off l (m + 1)) (hn : off l n ≤ a)
    (hn' : a < off l (n + 1)) : m = n := by
  rcases lt_trichotomy m n with h | h | h
  · have := off_le (l := l) (Nat.succ_le_of_lt h); simp only [Nat.succ_eq_add_one] at this; omega
  · exact h
  · have := off_le (l := l) (Nat.succ_le_of_lt h); simp only [Nat.succ_eq_add_one] at this; omega

/-! ### The CPU scan -/

/-- The scan returns the last of the closest rows. -/
def LastClosest (d : Nat → K) (js : List Nat) (r : K × Nat) : Prop :=
  r.2 ∈ js ∧ r.1 = d r.2 ∧ (∀ j ∈ js, d r.2 ≤ d j) ∧ ∀ j ∈ js, d j = d r.2 → j ≤ r.2

theorem scan_spec (d : Nat → K) (big : K) (js : List Nat) (hs : js.Pairwise (· < ·)) (hb : ∀ j ∈ js, d j ≤ big) (hn : js ≠ []) :
    LastClosest d js (scanCpu d big js) := by
  induction js using List.reverseRecOn with
  | nil => exact absurd rfl hn
  | append_singleton js j ih =>
    have hs' := List.pairwise_append.mp hs
    unfold scanCpu
    rw [List.foldl_append, List.foldl_cons, List.foldl_nil]
    change LastClosest d _ (if d j ≤ (scanCpu d big js).1 then (d j, j) else scanCpu d big js)
    rcases eq_or_ne js [] with rfl | hne
    · have : d j ≤ big := hb j (by simp)
      rw [if_pos (by simpa [scanCpu] using this)]
      exact ⟨by simp, rfl, by simp, by simp⟩
    · obtain ⟨i1, i2, i3, i4⟩ := ih hs'.1 (fun k hk => hb k (by simp [hk])) hne
      split
      · next h =>
        rw [i2] at h
        refine ⟨by simp, rfl, ?_, ?_⟩
        · intro k hk
          rcases List.mem_append.mp hk with hk | hk
          · exact h.trans (i3 k hk)
          · rw [List.mem_singleton.mp hk]
        · intro k hk _
          rcases List.mem_append.mp hk with hk | hk
          · exact (hs'.2.2 k hk j (by simp)).le
          · rw [List.mem_singleton.mp hk]
      · next h =>
        rw [i2] at h
        refine ⟨by simp [i1], i2, ?_, ?_⟩
        · intro k hk
          rcases List.mem_append.mp hk with hk | hk
          · exact i3 k hk
          · rw [List.mem_singleton.mp hk]; exact (not_le.mp h).le
        · intro k hk he
          rcases List.mem_append.mp hk with hk | hk
          · exact i4 k hk he
          · rw [List.mem_singleton.mp hk] at he
            exact absurd he.le h

theorem mem_span {lo hi j : Nat} : j ∈ List.range' lo (hi - lo) ↔ lo ≤ j ∧ j < hi := by
  rw [List.mem_range'_1]; omega

theorem scan_closest {d : Nat → K} {big : K} {lo hi : Nat} (hb : ∀ j, lo ≤ j → j < hi → d j ≤ big) :
    Closest d big lo hi (scanCpu d big (List.range' lo (hi - lo)))
      ∧ ∀ j, lo ≤ j → j < hi → d j = (scanCpu d big (List.range' lo (hi - lo))).1 →
        j ≤ (scanCpu d big (List.range' lo (hi - lo))).2 := by
  rcases le_or_gt hi lo with h | h
  · refine ⟨Or.inl ⟨h, ?_⟩, ?_⟩
    · rw [show hi - lo = 0 by omega]; rfl
    · intros; omega
  · obtain ⟨h1, h2, h3, h4⟩ := scan_spec d big (List.range' lo (hi - lo)) List.pairwise_lt_range'
      (fun j hj => hb j (mem_span.mp hj).1 (mem_span.mp hj).2)
      (by intro e; have := congrArg List.length e; simp at this; omega)
    refine ⟨Or.inr ⟨(mem_span.mp h1).1, (mem_span.mp h1).2, h2, fun j a b => h3 j (mem_span.mpr ⟨a, b⟩)⟩, ?_⟩
    intro j a b e
    exact h4 j (mem_span.mpr ⟨a, b⟩) (by rw [e, h2])

/-! ### The CPU loop -/

/-- The loop variables while element `m` is current. -/
abbrev good (na nb : List Nat) (m : Nat) : St :=
  ⟨m + 1, off na (m + 1), off nb m, off nb (m + 1)⟩

/-- The current element while row `a` is processed: the element of `a`, or the first empty element before it. -/
def Current (na : List Nat) (a m : Nat) : Prop :=
  m < na.length ∧ (∀ k (h : k < na.length), k < m → 0 < na[k]) ∧ off na m ≤ a ∧ (a < off na (m + 1) ∨ na.getD m 0 = 0)

theorem step_first {na nb : List Nat} (hl : na.length = nb.length) (h0 : 0 < na.sum) :
    step (firstIdx na) (firstIdx nb) na.sum nb.sum ⟨0, 0, 0, 0⟩ 0 = good na nb 0 ∧ Current na 0 0 := by
  have hlen : 0 < na.length := by
    rcases na with _ | ⟨x, l⟩
    · simp at h0
    · simp
  refine ⟨?_, hlen, fun k _ h => by omega, by simp [off], ?_⟩
  · unfold step good
    rw [if_pos rfl, firstIdx_length]
    simp only [Nat.zero_add]
    split
    · next h =>
      have e1 := off_length na
      have e2 := off_length nb
      rw [← h] at e1
      rw [← hl, ← h] at e2
      rw [e1, e2]
      simp [off]
    · next h => rw [firstIdx_getD (by omega), firstIdx_getD (by omega)]; simp [off]
  · rw [off_succ hlen]
    simp only [off, List.take_zero, List.sum_nil, Nat.zero_add, List.getD_eq_getElem?_getD, List.getElem?_eq_getElem hlen, Option.getD_some]
    omega

theorem step_next {na nb : List Nat} (hl : na.length = nb.length) {a m : Nat} (ha : a + 1 < na.sum) (h : Current na a m) :
    ∃ m', step (firstIdx na) (firstIdx nb) na.sum nb.sum (good na nb m) (a + 1) = good na nb m' ∧ Current na (a + 1) m' := by
  obtain ⟨h1, h2, h3, h4⟩ := h
  have hs := off_succ h1
  rw [List.getD_eq_getElem?_getD, List.getElem?_eq_getElem h1, Option.getD_some] at h4
  simp only [step, good]
  by_cases he : a + 1 = off na (m + 1)
  · have hm : m + 1 < na.length := by
      by_contra hc
      rw [show m + 1 = na.length by omega, off_length] at he
      omega
    refine ⟨m + 1, ?_, hm, ?_, by omega, ?_⟩
    · rw [if_pos he, firstIdx_length]
      by_cases hk : m + 1 + 1 = na.length
      · rw [if_pos hk]
        have e1 := off_length na
        have e2 := off_length nb
        rw [← hk] at e1
        rw [← hl, ← hk] at e2
        rw [e1, e2]
      · rw [if_neg hk, firstIdx_getD (by omega), firstIdx_getD (by omega)]
    · intro k hk hkm
      rcases Nat.lt_succ_iff_lt_or_eq.mp hkm with h | rfl
      · exact h2 k hk h
      · omega
    · rw [off_succ hm, List.getD_eq_getElem?_getD, List.getElem?_eq_getElem hm, Option.getD_some]
      omega
  · refine ⟨m, ?_, h1, h2, by omega, ?_⟩
    · rw [if_neg he]
    · rw [List.getD_eq_getElem?_getD, List.getElem?_eq_getElem h1, Option.getD_some]
      omega

theorem go_get {na nb : List Nat} (hl : na.length = nb.length) (d : Nat → Nat → K) (big : K) (cnt : Nat) :
    ∀ s st, s + cnt = na.sum →
    (∀ (_ : 0 < cnt), ∃ m, step (firstIdx na) (firstIdx nb) na.sum nb.sum st s = good na nb m ∧ Current na s m) →
    ∀ i < cnt, ∃ m, Current na (s + i) m ∧ (go (firstIdx na) (firstIdx nb) na.sum nb.sum d big (List.range' s cnt) st)[i]?
      = some (scanCpu (d (s + i)) big (List.range' (off nb m) (off nb (m + 1) - off nb m))) := by
  induction cnt with
  | zero => intro s st _ _ i hi; omega
  | succ cnt ih =>
    intro s st hs h i hi
    obtain ⟨m, e, hc⟩ := h (by omega)
    rw [List.range'_succ, go]
    simp only [e]
    rcases i with _ | i
    · exact ⟨m, by simpa using hc, by simp [good]⟩
    · obtain ⟨m', h1, h2⟩ := ih (s + 1) (good na nb m) (by omega) (fun _ => step_next hl (by omega) hc) i (by omega)
      refine ⟨m', by rwa [show s + (i + 1) = s + 1 + i by omega], ?_⟩
      rw [List.getElem?_cons_succ, h2, show s + (i + 1) = s + 1 + i by omega]

theorem go_length (aF bF : List Nat) (aN bN : Nat) (d : Nat → Nat → K) (big : K) (l : List Nat) (st : St) :
    (go aF bF aN bN d big l st).length = l.length := by
  induction l generalizing st with
  | nil => rfl
  | cons a l ih => simp only [go, List.length_cons, ih]

theorem cpuForward_length (na nb : List Nat) (d : Nat → Nat → K) (big : K) : (cpuForward na nb d big).length = na.sum := by
  rw [cpuForward, go_length, List.length_range]

theorem cpu_get {na nb : List Nat} (hl : na.length = nb.length) (d : Nat → Nat → K) (big : K) {a : Nat} (ha : a < na.sum) :
    ∃ m, Current na a m ∧ (cpuForward na nb d big)[a]?
      = some (scanCpu (d a) big (List.range' (off nb m) (off nb (m + 1) - off nb m))) := by
  have := go_get hl d big na.sum 0 ⟨0, 0, 0, 0⟩ (by omega) (fun h => ⟨0, step_first hl h⟩) a ha
  rw [Nat.zero_add] at this
  rw [cpuForward, List.range_eq_range']
  exact this

/-- Which element is searched for a row of element `n`: `n` itself, or the first empty element before it. -/
theorem current_eq {na : List Nat} {a n m k : Nat} (hn : n < na.length) (h1 : off na n ≤ a) (h2 : a < off na (n + 1))
    (hc : Current na a k) (hm : m ≤ n) (hpos : ∀ j (h : j < na.length), j < m → 0 < na[j])
    (hz : m = n ∨ na.getD m 0 = 0) : k = m := by
  obtain ⟨c1, c2, c3, c4⟩ := hc
  have hkn : k ≤ n := by
    by_contra h
    have := off_le (l := na) (m := n + 1) (n := k) (by omega)
    omega
  have hkz : k = n ∨ na.getD k 0 = 0 := by
    rcases c4 with c4 | c4
    · exact Or.inl (off_unique c3 c4 h1 h2)
    · exact Or.inr c4
  have key : ∀ {x y : Nat}, x ≤ n → (x = n ∨ na.getD x 0 = 0) → (∀ j (h : j < na.length), j < y → 0 < na[j]) → y ≤ n → ¬ x < y := by
    intro x y hx hz hp hy hlt
    have := hp x (by omega) hlt
    rcases hz with rfl | hz
    · omega
    · rw [List.getD_eq_getElem?_getD, List.getElem?_eq_getElem (by omega), Option.getD_some] at hz
      omega
  have a1 := key hkn hkz hpos hm
  have a2 := key hm hz c2 hkn
  omega

/-- **Closest elements on the CPU, all inputs.** A row of element `n` is compared with the rows of element `m`, where `m` is the first
empty element of the first input before `n`, or `n` if there is none. -/
theorem cpu_exact {na nb : List Nat} (hl : na.length = nb.length) {d : Nat → Nat → K} {big : K} {n m i : Nat} (hn : n < na.length)
    (hi : i < na[n]) (hm : m ≤ n) (hpos : ∀ j (h : j < na.length), j < m → 0 < na[j]) (hz : m = n ∨ na.getD m 0 = 0)
    (hb : ∀ j, off nb m ≤ j → j < off nb (m + 1) → d (off na n + i) j ≤ big) :
    ∃ r, (cpuForward na nb d big)[off na n + i]? = some r ∧ Closest (d (off na n + i)) big (off nb m) (off nb (m + 1)) r
      ∧ ∀ j, off nb m ≤ j → j < off nb (m + 1) → d (off na n + i) j = r.1 → j ≤ r.2 := by
  have hs := off_succ hn
  have hle := off_le_sum na (n + 1)
  obtain ⟨k, hc, e⟩ := cpu_get hl d big (a := off na n + i) (by omega)
  obtain rfl := current_eq hn (by omega) (by omega) hc hm hpos hz
  refine ⟨_, e, ?_⟩
  exact scan_closest hb

/-- **Closest elements on the CPU.** If no earlier element of the first input is empty, every row of element `n` gets the distance to
and the index of the closest row of element `n` of the second input, the last one of several; if element `n` of the second input is
empty, the largest float and index 0. -/
theorem cpu_correct {na nb : List Nat} (hl : na.length = nb.length) {d : Nat → Nat → K} {big : K} {n i : Nat} (hn : n < na.length)
    (hi : i < na[n]) (hpos : ∀ j (h : j < na.length), j < n → 0 < na[j])
    (hb : ∀ j, off nb n ≤ j → j < off nb (n + 1) → d (off na n + i) j ≤ big) :
    ∃ r, (cpuForward na nb d big)[off na n + i]? = some r ∧ Closest (d (off na n + i)) big (off nb n) (off nb (n + 1)) r
      ∧ ∀ j, off nb n ≤ j → j < off nb (n + 1) → d (off na n + i) j = r.1 → j ≤ r.2 :=
  cpu_exact hl hn hi le_rfl hpos (Or.inl rfl) hb

/-! ### CUDA -/

theorem lane_spec {d : Nat → K} {big : K} {lo cnt T tid : Nat} (hT : 0 < T) :
    ((strideLoop tid T cnt) = [] ∧ lane d big lo cnt T tid = (big, 0)) ∨
    ∃ j ∈ strideLoop tid T cnt, lane d big lo cnt T tid = (d (lo + j), lo + j) ∧ ∀ k ∈ strideLoop tid T cnt, d (lo + j) ≤ d (lo + k) := by
  rw [lane, strideLoop]
  by_cases h : tid < cnt
  · right
    rw [if_pos ⟨h, hT⟩, List.foldl_cons]
    simp only [if_true, le_refl]
    have htail : ∀ k ∈ strideLoop (tid + T) T cnt, k ≠ tid := by
      intro k hk
      have := (mem_strideLoop hT).mp hk
      omega
    generalize strideLoop (tid + T) T cnt = l at htail ⊢
    induction l using List.reverseRecOn with
    | nil => exact ⟨tid, by simp, rfl, by simp⟩
    | append_singleton l j ih =>
      obtain ⟨x, hx, ex, hmin⟩ := ih (fun k hk => htail k (by simp [hk]))
      rw [List.foldl_append, ex, List.foldl_cons, List.foldl_nil]
      simp only [if_neg (htail j (by simp))]
      split
      · next hle =>
        refine ⟨j, by simp, rfl, ?_⟩
        intro k hk
        have : k ∈ tid :: l ∨ k = j := by
          simp only [List.mem_cons, List.mem_append, List.not_mem_nil, or_false] at hk ⊢; tauto
        rcases this with hk | rfl
        · exact hle.trans (hmin k hk)
        · exact le_rfl
      · next hle =>
        refine ⟨x, ?_, rfl, ?_⟩
        · simp only [List.mem_cons, List.mem_append] at hx ⊢; tauto
        intro k hk
        have : k ∈ tid :: l ∨ k = j := by
          simp only [List.mem_cons, List.mem_append, List.not_mem_nil, or_false] at hk ⊢; tauto
        rcases this with hk | rfl
        · exact hmin k hk
        · exact (not_le.mp hle).le
  · left
    rw [if_neg (fun hc => h hc.1)]
    exact ⟨rfl, rfl⟩

/-- After the steps down to stride `s`, slot `k < s` holds the result of one of the lanes congruent to `k`, minimal among them. -/
def Inv (m0 m : Nat → K × Nat) (s : Nat) : Prop :=
  ∀ k < s, (∃ L < 128, m k = m0 L) ∧ ∀ L < 128, L % s = k → (m k).1 ≤ (m0 L).1

theorem inv_step {m0 m : Nat → K × Nat} {lim s : Nat} (hs : 0 < s) (hl : s ≤ lim) (h : Inv m0 m (2 * s)) :
    Inv m0 (reduceStep lim s m) s := by
  intro k hk
  obtain ⟨⟨L1, l1, e1⟩, f1⟩ := h k (by omega)
  obtain ⟨⟨L2, l2, e2⟩, f2⟩ := h (k + s) (by omega)
  have hmod : ∀ L, L % s = k → L % (2 * s) = k ∨ L % (2 * s) = k + s := by
    intro L hL
    have h1 : L % (2 * s) % s = k := by rw [Nat.mod_mul_left_mod, hL]
    have h2 : L % (2 * s) < 2 * s := Nat.mod_lt _ (by omega)
    rcases lt_or_ge (L % (2 * s)) s with h3 | h3
    · rw [Nat.mod_eq_of_lt h3] at h1; exact Or.inl h1
    · rw [Nat.mod_eq_sub_mod h3, Nat.mod_eq_of_lt (by omega)] at h1; right; omega
  unfold reduceStep
  split
  · next hc =>
    refine ⟨⟨L2, l2, e2⟩, fun L hL hm => ?_⟩
    rcases hmod L hm with h' | h'
    · exact (le_of_lt hc.2).trans (f1 L hL h')
    · exact f2 L hL h'
  · next hc =>
    have hle : (m k).1 ≤ (m (k + s)).1 := not_lt.mp fun hc' => hc ⟨by omega, hc'⟩
    refine ⟨⟨L1, l1, e1⟩, fun L hL hm => ?_⟩
    rcases hmod L hm with h' | h'
    · exact f1 L hL h'
    · exact hle.trans (f2 L hL h')

/-- The block reduction leaves the result of a lane with the least distance in slot 0. -/
theorem reduceAll_spec (m : Nat → K × Nat) :
    (∃ L < 128, reduceAll m 0 = m L) ∧ ∀ L < 128, (reduceAll m 0).1 ≤ (m L).1 := by
  have h0 : Inv m m 128 := by
    intro k hk
    refine ⟨⟨k, hk, rfl⟩, fun L hL h => ?_⟩
    rw [Nat.mod_eq_of_lt hL] at h
    rw [h]
  have h1 : Inv m (reduceAll m) 1 := by
    unfold reduceAll
    refine inv_step (s := 1) (by omega) (by omega) ?_
    refine inv_step (s := 2) (by omega) (by omega) ?_
    refine inv_step (s := 4) (by omega) (by omega) ?_
    refine inv_step (s := 8) (by omega) (by omega) ?_
    refine inv_step (s := 16) (by omega) (by omega) ?_
    refine inv_step (s := 32) (by omega) (by omega) ?_
    exact inv_step (s := 64) (by omega) (by omega) h0
  obtain ⟨a, b⟩ := h1 0 (by omega)
  exact ⟨a, fun L hL => b L hL (Nat.mod_one L)⟩

/-- A block finds a closest row among `cnt` candidates from `lo`. -/
theorem block_closest {d : Nat → K} {big : K} {lo hi : Nat} (hb : ∀ j, lo ≤ j → j < hi → d j < big) :
    Closest d big lo hi (reduceAll (lane d big lo (hi - lo) 128) 0) := by
  obtain ⟨⟨L, hL, e⟩, hmin⟩ := reduceAll_spec (lane d big lo (hi - lo) 128)
  rcases le_or_gt hi lo with h | h
  · left
    refine ⟨h, ?_⟩
    rw [e, lane, strideLoop, if_neg (by omega)]
    rfl
  · right
    rw [e]
    have hsp : ∀ t, t < 128 → ((strideLoop t 128 (hi - lo)) = [] ∧ lane d big lo (hi - lo) 128 t = (big, 0)) ∨
      ∃ j ∈ strideLoop t 128 (hi - lo), lane d big lo (hi - lo) 128 t = (d (lo + j), lo + j) ∧
        ∀ k ∈ strideLoop t 128 (hi - lo), d (lo + j) ≤ d (lo + k) := fun t _ => lane_spec (by omega)
    have hle : ∀ j, lo ≤ j → j < hi → (lane d big lo (hi - lo) 128 L).1 ≤ d j := by
      intro j h1 h2
      have hmem : j - lo ∈ strideLoop ((j - lo) % 128) 128 (hi - lo) :=
        (mem_strideLoop_lt (Nat.mod_lt _ (by omega))).mpr ⟨by omega, rfl⟩
      have hm := hmin ((j - lo) % 128) (Nat.mod_lt _ (by omega))
      rw [e] at hm
      rcases hsp ((j - lo) % 128) (Nat.mod_lt _ (by omega)) with ⟨h3, _⟩ | ⟨x, hx, h3, h4⟩
      · rw [h3] at hmem; simp at hmem
      · rw [h3] at hm
        have := h4 _ hmem
        rw [show lo + (j - lo) = j by omega] at this
        exact hm.trans this
    rcases hsp L hL with ⟨h3, h4⟩ | ⟨x, hx, h3, h4⟩
    · have := hle lo le_rfl h
      rw [h4] at this
      exact absurd (hb lo le_rfl h) (not_lt.mpr this)
    · have hx' := (mem_strideLoop_lt hL).mp hx
      rw [h3] at hle ⊢
      exact ⟨Nat.le_add_right _ _, by simp only; omega, rfl, hle⟩

theorem storeAll_mem {ι R : Type} [DecidableEq ι] (init : ι → R) {ws : List (ι × R)} {k : ι} {x : R} (h : (k, x) ∈ ws)
    (hu : ∀ w ∈ ws, w.1 = k → w.2 = x) : storeAll init ws k = x := by
  induction ws using List.reverseRecOn with
  | nil => simp at h
  | append_singleton ws w ih =>
    unfold storeAll
    rw [List.foldl_append, List.foldl_cons, List.foldl_nil]
    by_cases hk : w.1 = k
    · rw [hk, Function.update_self]; exact hu w (by simp) hk
    · rw [Function.update_of_ne (Ne.symm hk)]
      refine ih ?_ fun w' hw' => hu w' (by simp [hw'])
      rcases List.mem_append.mp h with h | h
      · exact h
      · rw [List.mem_singleton] at h; rw [← h] at hk; exact absurd rfl hk

theorem mem_cudaWrites {na nb : List Nat} {maxObjects : Nat} {d : Nat → Nat → K} {big : K} {w : Nat × (K × Nat)} :
    w ∈ cudaWrites na nb maxObjects d big ↔ ∃ n, ∃ h : n < na.length, ∃ i < maxObjects, i < na[n] ∧
      w = (off na n + i, block nb d big n (off na n + i)) := by
  unfold cudaWrites
  simp only [List.mem_flatMap, List.mem_range]
  constructor
  · rintro ⟨n, hn, i, hi, hw⟩
    rw [end_eq hn, firstIdx_getD hn, off_succ hn] at hw
    split at hw
    · next h => exact ⟨n, hn, i, hi, by omega, List.mem_singleton.mp hw⟩
    · simp at hw
  · rintro ⟨n, hn, i, hi, hi', rfl⟩
    refine ⟨n, hn, i, hi, ?_⟩
    rw [end_eq hn, firstIdx_getD hn, off_succ hn, if_pos (by omega)]
    simp

/-- **Closest elements on the GPU.** In whatever order the blocks finish, every row of element `n` gets the distance to and the index of a
closest row of element `n` of the second input; empty elements of the first input do not matter.  `max_objects` has to be at least
the size of the elements, as it is in `point_mesh_distance.py`. -/
theorem cuda_correct {na nb : List Nat} (hl : na.length = nb.length) {maxObjects : Nat} (hmax : ∀ x ∈ na, x ≤ maxObjects)
    {d : Nat → Nat → K} {big : K} {ws} (hp : ws.Perm (cudaWrites na nb maxObjects d big)) (init : Nat → K × Nat)
    {n i : Nat} (hn : n < na.length) (hi : i < na[n]) (hb : ∀ j, off nb n ≤ j → j < off nb (n + 1) → d (off na n + i) j < big) :
    Closest (d (off na n + i)) big (off nb n) (off nb (n + 1)) (storeAll init ws (off na n + i)) := by
  have hmem : (off na n + i, block nb d big n (off na n + i)) ∈ ws := by
    rw [hp.mem_iff, mem_cudaWrites]
    exact ⟨n, hn, i, hi.trans_le (hmax _ (List.getElem_mem hn)), hi, rfl⟩
  rw [storeAll_mem init hmem]
  · unfold block
    simp only
    rw [firstIdx_getD (by omega), end_eq (by omega)]
    exact block_closest hb
  · intro w hw he
    rw [hp.mem_iff, mem_cudaWrites] at hw
    obtain ⟨m, hm, j, _, hj, rfl⟩ := hw
    simp only at he
    have h1 := off_succ hn
    have h2 := off_succ hm
    obtain rfl := off_unique (l := na) (m := m) (n := n) (a := off na n + i) (by omega) (by omega) (by omega) (by omega)
    simp only [he]

/-- Closest rows have the same distance, and the same index if the closest row is unique. -/
theorem closest_unique {d : Nat → K} {big : K} {lo hi : Nat} {r r' : K × Nat} (h : Closest d big lo hi r) (h' : Closest d big lo hi r') :
    r.1 = r'.1 ∧ ((∀ j k, lo ≤ j → j < k → k < hi → d j ≠ d k ∨ d j ≠ r.1) → r = r') := by
  rcases h with ⟨a, e⟩ | ⟨a, b, c, f⟩
  · rcases h' with ⟨a', e'⟩ | ⟨a', b', c', f'⟩
    · rw [e, e']; exact ⟨rfl, fun _ => rfl⟩
    · omega
  · rcases h' with ⟨a', e'⟩ | ⟨a', b', c', f'⟩
    · omega
    · have he : r.1 = r'.1 := by rw [c, c']; exact le_antisymm (f _ a' b') (f' _ a b)
      refine ⟨he, fun hu => Prod.ext he ?_⟩
      rcases lt_trichotomy r.2 r'.2 with h | h | h
      · rcases hu _ _ a h b' with h1 | h1
        · rw [← c, ← c'] at h1; exact absurd he h1
        · exact absurd c.symm h1
      · exact h
      · rcases hu _ _ a' h b with h1 | h1
        · rw [← c, ← c'] at h1; exact absurd he.symm h1
        · rw [← c'] at h1; exact absurd he.symm h1

/-- **CPU and GPU.** If no element of the first input is empty, both compute the same distances, and the same indices where the closest
row is unique. -/
theorem cuda_eq_cpu {na nb : List Nat} (hl : na.length = nb.length) {maxObjects : Nat} (hmax : ∀ x ∈ na, x ≤ maxObjects)
    (hpos : ∀ x ∈ na, 0 < x) {d : Nat → Nat → K} {big : K} {ws}
    (hp : ws.Perm (cudaWrites na nb maxObjects d big)) (init : Nat → K × Nat) {n i : Nat} (hn : n < na.length) (hi : i < na[n])
    (hb : ∀ j, off nb n ≤ j → j < off nb (n + 1) → d (off na n + i) j < big) :
    ∃ r, (cpuForward na nb d big)[off na n + i]? = some r ∧ (storeAll init ws (off na n + i)).1 = r.1 ∧
      ((∀ j k, off nb n ≤ j → j < k → k < off nb (n + 1) → d (off na n + i) j ≠ d (off na n + i) k ∨ d (off na n + i) j ≠ r.1) →
        storeAll init ws (off na n + i) = r) := by
  obtain ⟨r, e, hc, _⟩ := cpu_correct hl hn hi (fun j h _ => hpos _ (List.getElem_mem h)) (fun j h1 h2 => (hb j h1 h2).le)
  have hg := cuda_correct hl hmax hp init hn hi hb
  obtain ⟨u1, u2⟩ := closest_unique hc hg
  exact ⟨r, e, u1.symm, fun hu => (u2 hu).symm⟩

/-! ### Empty elements and ties -/

/-- Rows at position `x`: a distance table for the examples. -/
def table (xs ys : List Int) (a b : Nat) : Int := (xs.getD a 0 - ys.getD b 0) ^ 2

/-- **An empty cloud changes the other results on the CPU.** Three elements with 1, 0 and 2 points at 0; 10, 11 and targets at 0, 5; 7; 10, 12:
the points of the third element are compared with the only target of the second. -/
theorem cpu_empty_wrong :
    cpuForward [1, 0, 2] [2, 1, 2] (table [0, 10, 11] [0, 5, 7, 10, 12]) 1000 = [(0, 0), (9, 2), (16, 2)]
      ∧ ¬ Closest (table [0, 10, 11] [0, 5, 7, 10, 12] 1) 1000 (off [2, 1, 2] 2) (off [2, 1, 2] 3) (9, 2) := by
  refine ⟨by decide +kernel, ?_⟩
  unfold Closest
  rintro (⟨h, _⟩ | ⟨h, _⟩)
  · revert h; decide
  · revert h; decide

/-- With at most as many candidates as threads, every thread looks at one. -/
theorem lane_small {d : Nat → K} {big : K} {lo cnt T : Nat} (h : cnt ≤ T) :
    lane d big lo cnt T = fun t => if t < cnt then (d (lo + t), lo + t) else (big, 0) := by
  funext t
  rw [lane, strideLoop]
  by_cases ht : t < cnt
  · rw [if_pos ⟨ht, by omega⟩, strideLoop, if_neg (by omega), if_pos ht]
    simp
  · rw [if_neg (fun hc => ht hc.1), if_neg ht]
    rfl

theorem block_small {nb : List Nat} {d : Nat → Nat → K} {big : K} {n a : Nat} (h : nb.getD n 0 ≤ 128) (hn : n < nb.length) :
    block nb d big n a
      = reduceAll (fun t => if t < nb.getD n 0 then (d a (off nb n + t), off nb n + t) else (big, 0)) 0 := by
  unfold block
  simp only
  rw [firstIdx_getD hn, end_eq hn, off_succ hn, Nat.add_sub_cancel_left]
  rw [List.getD_eq_getElem?_getD, List.getElem?_eq_getElem hn, Option.getD_some] at h ⊢
  rw [lane_small h]

/-- The GPU result for the same input. -/
example : block [2, 1, 2] (table [0, 10, 11] [0, 5, 7, 10, 12]) 1000 2 1 = (0, 3)
    ∧ block [2, 1, 2] (table [0, 10, 11] [0, 5, 7, 10, 12]) 1000 2 2 = (1, 3) := by
  rw [block_small (by decide) (by decide), block_small (by decide) (by decide)]
  decide +kernel

/-- Without empty elements. -/
example : cpuForward [1, 1, 2] [2, 0, 2] (table [4, 3, 10, 12] [0, 5, 10, 12]) 1000 = [(1, 1), (1000, 0), (0, 2), (0, 3)] := by decide +kernel

/-- **Ties.** With two closest rows the CPU returns the last, the GPU the one of the lower lane. -/
theorem tie_differs : cpuForward [1] [2] (table [1] [0, 2]) 1000 = [(1, 1)] ∧ block [2] (table [1] [0, 2]) 1000 0 0 = (1, 0) := by
  refine ⟨by decide +kernel, ?_⟩
  rw [block_small (by decide) (by decide)]
  decide +kernel

example : (cudaWrites [1, 0, 2] [2, 1, 2] 2 (table [0, 10, 11] [0, 5, 7, 10, 12]) 1000).map Prod.fst = [0, 1, 2] := by decide +kernel

end P3D.PointMesh
