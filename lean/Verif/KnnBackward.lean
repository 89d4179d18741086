/-
C47: the backward pass of `knn_points` (also used by `ball_query`, `ops/ball_query.py:46-48`):
`csrc/knn/knn_cpu.cpp:75-127` and the kernel `csrc/knn/knn.cu:467-518`.

Tensors are functions of their indices; an index tensor entry `none` is the pad value −1.  All
indices are assumed in range (other values are undefined behaviour in C++).
-/
import Verif.Knn
import Verif.Scatter
import Mathlib.Tactic.Ring
import Mathlib.Tactic.Linarith
import Mathlib.Algebra.Order.Group.Unbundled.Abs
import Mathlib.Algebra.Order.AbsoluteValue.Basic

namespace P3D.Knn
open P3D.Scatter

variable {R : Type*} [Field R] [LinearOrder R]

/-- `knn_cpu.cpp:112-119`: the value `diff` for one coordinate. -/
def backDiff (norm : Nat) (g x y : R) : R :=
  if norm = 1 then g * (if x > y then 1 else -1) else 2 * g * (x - y)

/-- `knn_cpu.cpp:98-123`: the additions made for one batch element, in program order: (point of p1,
point of p2, coordinate, diff). -/
def backTerms (norm D K len1 len2 : Nat) (p1 p2 : Nat → Nat → R) (idx : Nat → Nat → Option Nat)
    (g : Nat → Nat → R) : List (Nat × Nat × Nat × R) :=
  (List.range len1).flatMap fun i => (List.range (if len2 < K then len2 else K)).flatMap fun k =>
    match idx i k with
    | none => []
    | some j => (List.range D).map fun d => (i, j, d, backDiff norm (g i k) (p1 i d) (p2 j d))

/-- `grad_p1` from the additions (`knn_cpu.cpp:120`). -/
def gradP1 (ts : List (Nat × Nat × Nat × R)) : Nat × Nat → R :=
  scatterAdd (ts.map fun t => ((t.1, t.2.2.1), t.2.2.2))

/-- `grad_p2` from the additions (`knn_cpu.cpp:121`). -/
def gradP2 (ts : List (Nat × Nat × Nat × R)) : Nat × Nat → R :=
  scatterAdd (ts.map fun t => ((t.2.1, t.2.2.1), -1 * t.2.2.2))

/-- `knn.cu:485-517`: the work of flattened index `i` in the CUDA kernel: (batch, term). -/
def backGpuItem (norm D K P1 : Nat) (len1 len2 : Nat → Nat) (p1 p2 : Nat → Nat → Nat → R)
    (idx : Nat → Nat → Nat → Option Nat) (g : Nat → Nat → Nat → R) (i : Nat) :
    List (Nat × Nat × Nat × Nat × R) :=
  let n := i / (P1 * (K * D))
  let rem := i % (P1 * (K * D))
  let p := rem / (K * D)
  let rem' := rem % (K * D)
  let k := rem' / D
  let d := rem' % D
  if p < len1 n then
    if k < len2 n then
      match idx n p k with
      | none => []
      | some j => [(n, p, j, d, backDiff norm (g n p k) (p1 n p d) (p2 n j d))]
    else []
  else []

/-- The objective whose gradient is wanted: `Σ g·dist` over the entries returned by the forward
pass (`D` coordinates; the chosen indices held fixed). -/
def loss (norm D K len1 len2 : Nat) (p1 p2 : Nat → Nat → R) (idx : Nat → Nat → Option Nat)
    (g : Nat → Nat → R) : R :=
  ((List.range len1).map fun i => ((List.range (min len2 K)).map fun k =>
    match idx i k with
    | none => 0
    | some j => g i k * ((List.range D).map fun d => coordDist norm (p1 i d) (p2 j d)).sum).sum).sum

/-- Sum of a function over the terms, arranged like the loss. -/
theorem sum_backTerms (norm D K len1 len2 : Nat) (p1 p2 : Nat → Nat → R)
    (idx : Nat → Nat → Option Nat) (g : Nat → Nat → R) (f : Nat × Nat × Nat × R → R) :
    ((backTerms norm D K len1 len2 p1 p2 idx g).map f).sum
      = ((List.range len1).map fun i => ((List.range (min len2 K)).map fun k =>
          match idx i k with
          | none => 0
          | some j => ((List.range D).map fun d =>
              f (i, j, d, backDiff norm (g i k) (p1 i d) (p2 j d))).sum).sum).sum := by
  have hm : (if len2 < K then len2 else K) = min len2 K := by
    split <;> omega
  have fm : ∀ {α : Type} (l : List α) (h : α → List (Nat × Nat × Nat × R)),
      ((l.flatMap h).map f).sum = (l.map fun a => ((h a).map f).sum).sum := by
    intro α l h
    induction l with
    | nil => rfl
    | cons a l ih => simp [List.flatMap_cons, ih]
  rw [backTerms, fm, hm]
  congr 1
  apply List.map_congr_left
  intro i _
  rw [fm]
  congr 1
  apply List.map_congr_left
  intro k _
  cases idx i k with
  | none => rfl
  | some j => simp only [List.map_map]; rfl

theorem mem_backTerms {norm D K len1 len2 : Nat} {p1 p2 : Nat → Nat → R}
    {idx : Nat → Nat → Option Nat} {g : Nat → Nat → R} {t : Nat × Nat × Nat × R}
    (h : t ∈ backTerms norm D K len1 len2 p1 p2 idx g) :
    t.1 < len1 ∧ (∃ k < min len2 K, idx t.1 k = some t.2.1) ∧ t.2.2.1 < D := by
  have hm : (if len2 < K then len2 else K) = min len2 K := by
    split <;> omega
  rw [backTerms, hm] at h
  simp only [List.mem_flatMap, List.mem_range] at h
  obtain ⟨i, hi, k, hk, h⟩ := h
  cases hidx : idx i k with
  | none => rw [hidx] at h; simp at h
  | some j =>
    rw [hidx] at h
    simp only [List.mem_map, List.mem_range] at h
    obtain ⟨d, hd, rfl⟩ := h
    exact ⟨hi, ⟨k, hk, hidx⟩, hd⟩

/-- ⟨grad_p1, u1⟩ + ⟨grad_p2, u2⟩ as a sum over the terms. -/
theorem pairing (norm D K len1 len2 P1 P2 : Nat) (p1 p2 : Nat → Nat → R)
    (idx : Nat → Nat → Option Nat) (g : Nat → Nat → R) (u1 u2 : Nat → Nat → R)
    (h1 : len1 ≤ P1) (h2 : ∀ i < len1, ∀ k < min len2 K, ∀ j ∈ idx i k, j < P2) :
    let ts := backTerms norm D K len1 len2 p1 p2 idx g
    (∑ x ∈ Finset.range P1 ×ˢ Finset.range D, gradP1 ts x * u1 x.1 x.2)
      + (∑ x ∈ Finset.range P2 ×ˢ Finset.range D, gradP2 ts x * u2 x.1 x.2)
      = (ts.map fun t => t.2.2.2 * (u1 t.1 t.2.2.1 - u2 t.2.1 t.2.2.1)).sum := by
  intro ts
  have e1 := sum_scatterAdd (ts.map fun t => ((t.1, t.2.2.1), t.2.2.2))
    (Finset.range P1 ×ˢ Finset.range D) ?_ (fun x => u1 x.1 x.2)
  have e2 := sum_scatterAdd (ts.map fun t => ((t.2.1, t.2.2.1), -1 * t.2.2.2))
    (Finset.range P2 ×ˢ Finset.range D) ?_ (fun x => u2 x.1 x.2)
  · rw [gradP1, gradP2, e1, e2, List.map_map, List.map_map]
    rw [← List.sum_map_add]
    congr 1
    apply List.map_congr_left
    intro t _
    simp only [Function.comp]
    ring
  · intro c hc
    obtain ⟨t, ht, rfl⟩ := List.mem_map.mp hc
    obtain ⟨h3, ⟨k, hk, h4⟩, h5⟩ := mem_backTerms ht
    simp only [Finset.mem_product, Finset.mem_range]
    exact ⟨h2 _ h3 k hk _ h4, h5⟩
  · intro c hc
    obtain ⟨t, ht, rfl⟩ := List.mem_map.mp hc
    obtain ⟨h3, -, h5⟩ := mem_backTerms ht
    simp only [Finset.mem_product, Finset.mem_range]
    exact ⟨by omega, h5⟩

omit [LinearOrder R] in
theorem sum_map_add3 {α : Type*} (l : List α) (a b c : α → R) :
    (l.map a).sum + (l.map b).sum + (l.map c).sum = (l.map fun x => a x + b x + c x).sum := by
  rw [← List.sum_map_add, ← List.sum_map_add]

/-- **C47 (squared distances).** The returned gradients are the exact derivative of the weighted sum
of the returned distances: for all displacements, `L(p+u) = L(p) + ⟨grad, u⟩ + L(u)`, where `L(u)`
is quadratic in `u`. -/
theorem backward_norm2 (norm D K len1 len2 P1 P2 : Nat) (hn : norm ≠ 1) (p1 p2 : Nat → Nat → R)
    (idx : Nat → Nat → Option Nat) (g : Nat → Nat → R) (u1 u2 : Nat → Nat → R)
    (h1 : len1 ≤ P1) (h2 : ∀ i < len1, ∀ k < min len2 K, ∀ j ∈ idx i k, j < P2) :
    let ts := backTerms norm D K len1 len2 p1 p2 idx g
    loss norm D K len1 len2 (fun i d => p1 i d + u1 i d) (fun i d => p2 i d + u2 i d) idx g
      = loss norm D K len1 len2 p1 p2 idx g
        + ((∑ x ∈ Finset.range P1 ×ˢ Finset.range D, gradP1 ts x * u1 x.1 x.2)
          + (∑ x ∈ Finset.range P2 ×ˢ Finset.range D, gradP2 ts x * u2 x.1 x.2))
        + loss norm D K len1 len2 u1 u2 idx g := by
  intro ts
  rw [pairing norm D K len1 len2 P1 P2 p1 p2 idx g u1 u2 h1 h2, sum_backTerms, loss, loss, loss,
    sum_map_add3]
  congr 1
  apply List.map_congr_left
  intro i _
  rw [sum_map_add3]
  congr 1
  apply List.map_congr_left
  intro k _
  cases idx i k with
  | none => simp
  | some j =>
    simp only [← List.sum_map_mul_left]
    rw [sum_map_add3]
    congr 1
    apply List.map_congr_left
    intro d _
    simp only [coordDist, backDiff, if_neg hn]
    ring

/-- **C47 (L1 distances).** Where no coordinate difference vanishes, the returned gradients are the
exact derivative: for displacements too small to change the sign of a coordinate difference,
`L(p+u) = L(p) + ⟨grad, u⟩`. -/
theorem backward_norm1 [IsStrictOrderedRing R] (D K len1 len2 P1 P2 : Nat) (p1 p2 : Nat → Nat → R)
    (idx : Nat → Nat → Option Nat) (g : Nat → Nat → R) (u1 u2 : Nat → Nat → R)
    (h1 : len1 ≤ P1) (h2 : ∀ i < len1, ∀ k < min len2 K, ∀ j ∈ idx i k, j < P2)
    (hu : ∀ i < len1, ∀ k < min len2 K, ∀ j ∈ idx i k, ∀ d < D,
      |u1 i d - u2 j d| < |p1 i d - p2 j d|) :
    let ts := backTerms 1 D K len1 len2 p1 p2 idx g
    loss 1 D K len1 len2 (fun i d => p1 i d + u1 i d) (fun i d => p2 i d + u2 i d) idx g
      = loss 1 D K len1 len2 p1 p2 idx g
        + ((∑ x ∈ Finset.range P1 ×ˢ Finset.range D, gradP1 ts x * u1 x.1 x.2)
          + (∑ x ∈ Finset.range P2 ×ˢ Finset.range D, gradP2 ts x * u2 x.1 x.2)) := by
  intro ts
  rw [pairing 1 D K len1 len2 P1 P2 p1 p2 idx g u1 u2 h1 h2, sum_backTerms, loss, loss,
    ← List.sum_map_add]
  congr 1
  apply List.map_congr_left
  intro i hi
  rw [List.mem_range] at hi
  rw [← List.sum_map_add]
  congr 1
  apply List.map_congr_left
  intro k hk
  rw [List.mem_range] at hk
  cases hidx : idx i k with
  | none => simp
  | some j =>
    simp only [← List.sum_map_mul_left]
    rw [← List.sum_map_add]
    congr 1
    apply List.map_congr_left
    intro d hd
    rw [List.mem_range] at hd
    have h := hu i hi k hk j hidx d hd
    simp only [coordDist, backDiff, if_true]
    by_cases hc : p1 i d > p2 j d
    · rw [if_pos hc]
      rw [abs_of_pos (a := p1 i d - p2 j d) (by linarith)] at h ⊢
      have := (abs_lt.mp h).1
      rw [abs_of_pos (by linarith)]
      ring
    · rw [if_neg hc]
      rw [abs_of_nonpos (a := p1 i d - p2 j d) (by linarith)] at h ⊢
      have := (abs_lt.mp h).2
      rw [abs_of_neg (by linarith)]
      ring

/-- **C47 (CUDA).** The CUDA kernel makes exactly the additions of the CPU code: the terms of all
flattened indices are those of the loops over the batch. -/
theorem backGpu_eq (norm D K P1 N : Nat) (len1 len2 : Nat → Nat) (p1 p2 : Nat → Nat → Nat → R)
    (idx : Nat → Nat → Nat → Option Nat) (g : Nat → Nat → Nat → R) (hl : ∀ n, len1 n ≤ P1) :
    (List.range (N * (P1 * (K * D)))).flatMap (backGpuItem norm D K P1 len1 len2 p1 p2 idx g)
      = (List.range N).flatMap fun n =>
          (backTerms norm D K (len1 n) (len2 n) (p1 n) (p2 n) (idx n) (g n)).map fun t => (n, t) := by
  rw [flatMap_range_mul]
  apply flatMap_congr'
  intro n _
  rw [flatMap_range_mul]
  have hm : (if len2 n < K then len2 n else K) = min K (len2 n) := by
    split <;> omega
  rw [backTerms, hm, List.map_flatMap, show len1 n = min P1 (len1 n) by have := hl n; omega,
    ← flatMap_guard]
  apply flatMap_congr'
  intro p hp
  rw [List.mem_range] at hp
  rw [flatMap_range_mul, List.map_flatMap, ← flatMap_guard]
  by_cases hpl : p < len1 n
  · rw [if_pos (by omega)]
    apply flatMap_congr'
    intro k hk
    rw [List.mem_range] at hk
    have hgen : ∀ d < D, backGpuItem norm D K P1 len1 len2 p1 p2 idx g
          (n * (P1 * (K * D)) + (p * (K * D) + (k * D + d)))
        = if k < len2 n then
            match idx n p k with
            | none => []
            | some j => [(n, p, j, d, backDiff norm (g n p k) (p1 n p d) (p2 n j d))]
          else [] := by
      intro d hd
      have b1 : k * D + d < K * D := by
        calc k * D + d < (k + 1) * D := by rw [Nat.add_mul]; omega
          _ ≤ K * D := Nat.mul_le_mul_right _ hk
      have b2 : p * (K * D) + (k * D + d) < P1 * (K * D) := by
        calc p * (K * D) + (k * D + d) < (p + 1) * (K * D) := by rw [Nat.add_mul]; omega
          _ ≤ P1 * (K * D) := Nat.mul_le_mul_right _ hp
      simp only [backGpuItem, div_decode b2, mod_decode b2, div_decode b1, mod_decode b1,
        div_decode hd, mod_decode hd, if_pos hpl]
    rw [flatMap_congr' (fun d hd => hgen d (List.mem_range.mp hd))]
    by_cases hk2 : k < len2 n
    · simp only [if_pos hk2]
      cases idx n p k with
      | none => simp
      | some j =>
        simp only [List.map_map]
        rw [List.flatMap_def]
        induction List.range D with
        | nil => rfl
        | cons a l ih => simp only [List.map_cons, List.flatten_cons, ih]; rfl
    · simp [if_neg hk2]
  · rw [if_neg (by omega)]
    rw [List.flatMap_eq_nil_iff]
    intro k hk
    rw [List.mem_range] at hk
    rw [List.flatMap_eq_nil_iff]
    intro d hd
    rw [List.mem_range] at hd
    have b1 : k * D + d < K * D := by
      calc k * D + d < (k + 1) * D := by rw [Nat.add_mul]; omega
        _ ≤ K * D := Nat.mul_le_mul_right _ hk
    have b2 : p * (K * D) + (k * D + d) < P1 * (K * D) := by
      calc p * (K * D) + (k * D + d) < (p + 1) * (K * D) := by rw [Nat.add_mul]; omega
        _ ≤ P1 * (K * D) := Nat.mul_le_mul_right _ hp
    simp only [backGpuItem, div_decode b2, mod_decode b2, div_decode b1, if_neg hpl]

example : backTerms 2 2 2 1 3 (fun _ _ => (1 : ℚ)) (fun j d => j + d) (fun _ k => some (k + 1))
    (fun _ k => k + 1) = [(0, 1, 0, 0), (0, 1, 1, -2), (0, 2, 0, -4), (0, 2, 1, -8)] := by
  decide +kernel

end P3D.Knn
