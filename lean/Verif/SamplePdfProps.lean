/-
C38: `sample_pdf`: samples lie in the right bin, are monotone in the quantile and invert the
cumulative weights; CPU binary search = GPU linear scan; thread distribution.
-/
import Verif.SamplePdf
import Verif.Scatter
import Mathlib.Tactic.Ring
import Mathlib.Tactic.Linarith
import Mathlib.Tactic.FieldSimp
import Mathlib.Tactic.IntervalCases
import Mathlib.Algebra.Order.BigOperators.Group.Finset
import Mathlib.Algebra.Order.Ring.Rat

set_option linter.unusedSectionVars false

namespace P3D.SamplePdf
open P3D.Chunks P3D.Scatter Finset

variable {R : Type*} [Field R] [LinearOrder R] [IsStrictOrderedRing R]

/-! ### Specification -/

/-- Total weight of the first `i` bins. -/
def Row.cum (r : Row R) (i : Nat) : R := ∑ k ∈ range i, r.w k

/-- Well-formed input: at least one bin, non-negative weights, increasing edges. -/
structure Row.Ok (r : Row R) : Prop where
  pos : 0 < r.n
  w : ∀ i < r.n, 0 ≤ r.w i
  b : ∀ i < r.n, r.b i ≤ r.b (i + 1)

/-- Bin `i` is the one that mass `x` falls into: all earlier bins are exhausted by `x`, and bin `i`
is not, or is the last one. -/
structure Row.Bin (r : Row R) (x : R) (i : Nat) : Prop where
  lt : i < r.n
  before : ∀ j < i, r.cum (j + 1) < x
  here : i + 1 = r.n ∨ x ≤ r.cum (i + 1)

theorem cum_succ (r : Row R) (i : Nat) : r.cum (i + 1) = r.cum i + r.w i := by
  rw [Row.cum, Row.cum, sum_range_succ]

theorem cum_mono {r : Row R} (h : ∀ i < r.n, 0 ≤ r.w i) {i j : Nat} (hij : i ≤ j) (hj : j ≤ r.n) :
    r.cum i ≤ r.cum j := by
  induction j, hij using Nat.le_induction with
  | base => exact le_refl _
  | succ j hij ih =>
    rw [cum_succ]
    have := ih (by omega)
    have := h j (by omega)
    linarith

theorem edges_mono {r : Row R} (h : ∀ i < r.n, r.b i ≤ r.b (i + 1)) {i j : Nat} (hij : i ≤ j)
    (hj : j ≤ r.n) : r.b i ≤ r.b j := by
  induction j, hij using Nat.le_induction with
  | base => exact le_refl _
  | succ j hij ih => exact (ih (by omega)).trans (h j (by omega))

theorem Row.Bin.unique {r : Row R} {x : R} {i j : Nat} (hi : r.Bin x i) (hj : r.Bin x j) : i = j := by
  rcases lt_trichotomy i j with h | h | h
  · have h1 := hj.before i h
    have := hj.lt
    rcases hi.here with h2 | h2
    · omega
    · exact absurd h1 (not_lt.mpr h2)
  · exact h
  · have h1 := hi.before j h
    have := hi.lt
    rcases hj.here with h2 | h2
    · omega
    · exact absurd h1 (not_lt.mpr h2)

/-! ### Both searches find the bin -/

theorem accumulate_eq (r : Row R) :
    accumulate r = (r.cum r.n, (List.range r.n).map fun i => r.cum (i + 1)) := by
  unfold accumulate
  have key : ∀ n, (List.range n).foldl (fun (s : R × List R) i => (s.1 + r.w i, s.2 ++ [s.1 + r.w i]))
      (0, []) = (r.cum n, (List.range n).map fun i => r.cum (i + 1)) := by
    intro n
    induction n with
    | zero => simp [Row.cum]
    | succ n ih =>
      rw [List.range_succ, List.foldl_append, ih]
      simp [cum_succ]
  exact key r.n

/-- The halving search returns the first position not below `x`, on sorted data. -/
theorem lowerBound_spec (a : Nat → R) (x : R) (first len : Nat)
    (hs : ∀ i j, first ≤ i → i ≤ j → j < first + len → a i ≤ a j) :
    first ≤ lowerBound a x first len ∧ lowerBound a x first len ≤ first + len ∧
    (∀ i, first ≤ i → i < lowerBound a x first len → a i < x) ∧
    (∀ i, lowerBound a x first len ≤ i → i < first + len → x ≤ a i) := by
  induction len using Nat.strong_induction_on generalizing first with
  | _ len ih =>
    rw [lowerBound]
    by_cases h0 : len = 0
    · subst h0
      simp only [dif_pos]
      refine ⟨le_refl _, by omega, fun i h1 h2 => by omega, fun i h1 h2 => by omega⟩
    · rw [dif_neg h0]
      by_cases hm : a (first + len / 2) < x
      · rw [if_pos hm]
        obtain ⟨i1, i2, i3, i4⟩ := ih (len - len / 2 - 1) (by omega) (first + len / 2 + 1)
          (fun i j h1 h2 h3 => hs i j (by omega) h2 (by omega))
        refine ⟨by omega, by omega, ?_, fun i h1 h2 => i4 i h1 (by omega)⟩
        intro i h1 h2
        by_cases hi : first + len / 2 + 1 ≤ i
        · exact i3 i hi h2
        · exact lt_of_le_of_lt (hs i _ h1 (by omega) (by omega)) hm
      · rw [if_neg hm]
        obtain ⟨i1, i2, i3, i4⟩ := ih (len / 2) (by omega) first
          (fun i j h1 h2 h3 => hs i j h1 h2 (by omega))
        refine ⟨i1, by omega, i3, ?_⟩
        intro i h1 h2
        by_cases hi : i < first + len / 2
        · exact i4 i h1 hi
        · exact (not_lt.mp hm).trans (hs _ i (by omega) (by omega) h2)

theorem sampleCpu_bin {r : Row R} (h : r.Ok) (eps u : R) :
    ∃ i, r.Bin ((r.cum r.n + eps) * u) i ∧
      sampleCpu r eps u = finish r eps i ((r.cum r.n + eps) * u - r.cum i) := by
  have hp := h.pos
  set x := (r.cum r.n + eps) * u with hx
  have hget : ∀ i < r.n, ((List.range r.n).map fun i => r.cum (i + 1)).getD i 0 = r.cum (i + 1) := by
    intro i hi
    simp [List.getD, hi]
  have hspec := lowerBound_spec (fun i => ((List.range r.n).map fun i => r.cum (i + 1)).getD i 0) x 0
    (r.n - 1) (fun i j _ h2 h3 => by
      rw [hget i (by omega), hget j (by omega)]
      exact cum_mono h.w (by omega) (by omega))
  have hval : sampleCpu r eps u = finish r eps (lowerBound (fun i =>
      ((List.range r.n).map fun i => r.cum (i + 1)).getD i 0) x 0 (r.n - 1))
      (if lowerBound (fun i => ((List.range r.n).map fun i => r.cum (i + 1)).getD i 0) x 0
        (r.n - 1) > 0 then x - ((List.range r.n).map fun i => r.cum (i + 1)).getD
          (lowerBound (fun i => ((List.range r.n).map fun i => r.cum (i + 1)).getD i 0) x 0
            (r.n - 1) - 1) 0 else x) := by
    rw [sampleCpu, accumulate_eq]
  rw [hval]
  revert hspec
  generalize lowerBound (fun i => ((List.range r.n).map fun i => r.cum (i + 1)).getD i 0) x 0
    (r.n - 1) = i
  rintro ⟨_, h2, h3, h4⟩
  refine ⟨i, ⟨by omega, ?_, ?_⟩, ?_⟩
  · intro j hj
    have := h3 j (by omega) hj
    rwa [hget j (by omega)] at this
  · by_cases hi : i + 1 = r.n
    · exact Or.inl hi
    · right
      have := h4 i (le_refl _) (by omega)
      rwa [hget i (by omega)] at this
  · congr 1
    by_cases hi : i > 0
    · rw [if_pos hi, hget (i - 1) (by omega), show i - 1 + 1 = i by omega]
    · rw [if_neg hi, show i = 0 by omega]
      simp [Row.cum]

theorem scan_spec (r : Row R) (x : R) (i : Nat) (hi : i < r.n) (hb : ∀ j < i, r.cum (j + 1) < x) :
    r.Bin x (scan r i (x - r.cum i)).1 ∧
    (scan r i (x - r.cum i)).2 = x - r.cum (scan r i (x - r.cum i)).1 := by
  induction h : r.n - i using Nat.strong_induction_on generalizing i with
  | _ m ih =>
    rw [scan]
    by_cases hc : i + 1 < r.n ∧ x - r.cum i > r.w i
    · rw [if_pos hc, sub_sub, ← cum_succ]
      apply ih (r.n - (i + 1)) (by omega) (i + 1) hc.1 ?_ rfl
      intro j hj
      by_cases hj' : j < i
      · exact hb j hj'
      · rw [show j = i by omega, cum_succ]
        linarith [hc.2]
    · rw [if_neg hc]
      refine ⟨⟨hi, hb, ?_⟩, rfl⟩
      by_cases h1 : i + 1 = r.n
      · exact Or.inl h1
      · right
        have : ¬ (x - r.cum i > r.w i) := fun hx => hc ⟨by omega, hx⟩
        rw [cum_succ]
        linarith [not_lt.mp this]

theorem foldl_total (r : Row R) (eps : R) (n : Nat) :
    (List.range n).foldl (fun t i => t + r.w i) eps = r.cum n + eps := by
  induction n with
  | zero => simp [Row.cum]
  | succ n ih => rw [List.range_succ, List.foldl_append, ih]; simp [cum_succ]; ring

theorem sampleCuda_bin {r : Row R} (hp : 0 < r.n) (eps u : R) :
    ∃ i, r.Bin ((r.cum r.n + eps) * u) i ∧
      sampleCuda r eps u = finish r eps i ((r.cum r.n + eps) * u - r.cum i) := by
  have h0 : r.cum 0 = 0 := by simp [Row.cum]
  have := scan_spec r ((r.cum r.n + eps) * u) 0 hp (fun j hj => by omega)
  rw [h0, sub_zero] at this
  refine ⟨_, this.1, ?_⟩
  rw [sampleCuda]
  rw [foldl_total, this.2]

/-- **C38 (CPU = GPU).** Binary search over partial sums and the linear scan give the same sample,
for every quantile (non-negative weights). -/
theorem sample_cpu_eq_cuda {r : Row R} (h : r.Ok) (eps u : R) :
    sampleCpu r eps u = sampleCuda r eps u := by
  obtain ⟨i, hi, e1⟩ := sampleCpu_bin h eps u
  obtain ⟨j, hj, e2⟩ := sampleCuda_bin h.pos eps u
  rw [e1, e2, Row.Bin.unique hi hj]

/-! ### Where the samples lie -/

theorem finish_mem {r : Row R} (h : r.Ok) {eps : R} (he : 0 ≤ eps) {i : Nat} (hi : i < r.n) {y : R}
    (hy : 0 ≤ y) : r.b i ≤ finish r eps i y ∧ finish r eps i y ≤ r.b (i + 1) := by
  have hb := h.b i hi
  unfold finish
  by_cases h1 : y > r.w i
  · rw [if_pos h1]; exact ⟨hb, le_refl _⟩
  · rw [if_neg h1]
    by_cases h2 : r.w i > eps
    · rw [if_pos h2]
      have hw : 0 < r.w i := lt_of_le_of_lt he h2
      have q0 : 0 ≤ y / r.w i := div_nonneg hy hw.le
      have q1 : y / r.w i ≤ 1 := (div_le_one hw).mpr (not_lt.mp h1)
      have hd : 0 ≤ r.b (i + 1) - r.b i := by linarith
      constructor
      · nlinarith [mul_nonneg q0 hd]
      · nlinarith [mul_le_mul_of_nonneg_right q1 hd]
    · rw [if_neg h2]; exact ⟨le_refl _, hb⟩

/-- The mass left for the chosen bin is not negative. -/
theorem Row.Bin.residual_nonneg {r : Row R} {x : R} {i : Nat} (hi : r.Bin x i) (hx : 0 ≤ x) :
    0 ≤ x - r.cum i := by
  rcases Nat.eq_zero_or_pos i with h0 | h0
  · subst h0; simpa [Row.cum] using hx
  · have := hi.before (i - 1) (by omega)
    rw [show i - 1 + 1 = i by omega] at this
    linarith

theorem mass_nonneg {r : Row R} (h : r.Ok) {eps u : R} (he : 0 ≤ eps) (hu : 0 ≤ u) :
    0 ≤ (r.cum r.n + eps) * u := by
  have : r.cum 0 ≤ r.cum r.n := cum_mono h.w (by omega) (le_refl _)
  rw [show r.cum 0 = 0 by simp [Row.cum]] at this
  exact mul_nonneg (by linarith) hu

/-- **C38 (range).** For every quantile `u ≥ 0` the sample lies in the bin selected by the quantile
and hence between the first and the last edge. -/
theorem sample_mem {r : Row R} (h : r.Ok) {eps u : R} (he : 0 ≤ eps) (hu : 0 ≤ u) :
    (∃ i, r.Bin ((r.cum r.n + eps) * u) i ∧
      r.b i ≤ sampleCpu r eps u ∧ sampleCpu r eps u ≤ r.b (i + 1)) ∧
    r.b 0 ≤ sampleCpu r eps u ∧ sampleCpu r eps u ≤ r.b r.n := by
  obtain ⟨i, hi, e⟩ := sampleCpu_bin h eps u
  have hm := finish_mem h he hi.lt (hi.residual_nonneg (mass_nonneg h he hu))
  rw [← e] at hm
  exact ⟨⟨i, hi, hm⟩, (edges_mono h.b (by omega) hi.lt.le).trans hm.1,
    hm.2.trans (edges_mono h.b hi.lt (le_refl _))⟩

theorem finish_mono {r : Row R} (h : r.Ok) {eps : R} (he : 0 ≤ eps) {i : Nat} (hi : i < r.n)
    {y y' : R} (hy : 0 ≤ y) (hyy : y ≤ y') : finish r eps i y ≤ finish r eps i y' := by
  by_cases h1' : y' > r.w i
  · rw [show finish r eps i y' = r.b (i + 1) by rw [finish, if_pos h1']]
    exact (finish_mem h he hi hy).2
  · have h1 : ¬ y > r.w i := fun h2 => h1' (lt_of_lt_of_le h2 hyy)
    rw [finish, finish, if_neg h1, if_neg h1']
    by_cases h2 : r.w i > eps
    · rw [if_pos h2, if_pos h2]
      have hw : 0 < r.w i := lt_of_le_of_lt he h2
      have hd : 0 ≤ r.b (i + 1) - r.b i := by linarith [h.b i hi]
      have := mul_le_mul_of_nonneg_right (div_le_div_of_nonneg_right hyy hw.le) hd
      linarith
    · rw [if_neg h2, if_neg h2]

/-- **C38 (monotone).** A larger quantile never gives a smaller sample. -/
theorem sample_mono {r : Row R} (h : r.Ok) {eps u u' : R} (he : 0 ≤ eps) (hu : 0 ≤ u)
    (huu : u ≤ u') : sampleCpu r eps u ≤ sampleCpu r eps u' := by
  obtain ⟨i, hi, e⟩ := sampleCpu_bin h eps u
  obtain ⟨j, hj, e'⟩ := sampleCpu_bin h eps u'
  have hm := mass_nonneg h he hu
  have hm' := mass_nonneg h he (hu.trans huu)
  have hle : (r.cum r.n + eps) * u ≤ (r.cum r.n + eps) * u' := by
    apply mul_le_mul_of_nonneg_left huu
    have := cum_mono h.w (Nat.zero_le r.n) (le_refl _)
    rw [show r.cum 0 = 0 by simp [Row.cum]] at this
    linarith
  rcases lt_trichotomy i j with hij | hij | hij
  · rw [e, e']
    exact (finish_mem h he hi.lt (hi.residual_nonneg hm)).2.trans
      ((edges_mono h.b hij hj.lt.le).trans (finish_mem h he hj.lt (hj.residual_nonneg hm')).1)
  · subst hij
    rw [e, e']
    exact finish_mono h he hi.lt (hi.residual_nonneg hm) (by linarith)
  · have h1 := hi.before j hij
    have hlt := hi.lt
    rcases hj.here with h2 | h2
    · omega
    · exact absurd (lt_of_lt_of_le h1 hle) (not_lt.mpr h2)

/-- **C38 (inversion).** If the selected bin has weight above `eps` and the quantile does not run
past the total weight, the mass to the left of the sample (weights spread uniformly over their
bins) is exactly `(total + eps) * u`. -/
theorem sample_inverts {r : Row R} (h : r.Ok) {eps u : R} (he : 0 ≤ eps)
    {i : Nat} (hi : r.Bin ((r.cum r.n + eps) * u) i) (hw : eps < r.w i)
    (hx : (r.cum r.n + eps) * u ≤ r.cum r.n) (hb : r.b i < r.b (i + 1)) :
    r.cum i + r.w i * ((sampleCpu r eps u - r.b i) / (r.b (i + 1) - r.b i))
      = (r.cum r.n + eps) * u := by
  obtain ⟨j, hj, e⟩ := sampleCpu_bin h eps u
  obtain rfl := Row.Bin.unique hi hj
  have hle : (r.cum r.n + eps) * u ≤ r.cum (i + 1) := by
    rcases hi.here with h2 | h2
    · rw [h2]; exact hx
    · exact h2
  have h1 : ¬ (r.cum r.n + eps) * u - r.cum i > r.w i := by
    rw [cum_succ] at hle; exact not_lt.mpr (by linarith)
  have hw0 : r.w i ≠ 0 := (lt_of_le_of_lt he hw).ne'
  have hb0 : r.b (i + 1) - r.b i ≠ 0 := by
    intro h0; linarith
  rw [e, finish, if_neg h1, if_pos hw]
  field_simp
  ring

/-- **C38 (empty bins).** A bin of weight 0 is selected only by the quantile 0, or as the last bin
when the quantile runs past the total weight. -/
theorem bin_weight_pos {r : Row R} {x : R} {i : Nat} (hi : r.Bin x i) (hx0 : 0 < x)
    (hx1 : x ≤ r.cum r.n) : 0 < r.w i := by
  have hle : x ≤ r.cum (i + 1) := by
    rcases hi.here with h2 | h2
    · rw [h2]; exact hx1
    · exact h2
  rw [cum_succ] at hle
  have hlt : r.cum i < x := by
    rcases Nat.eq_zero_or_pos i with h0 | h0
    · subst h0; simpa [Row.cum] using hx0
    · have := hi.before (i - 1) (by omega)
      rwa [show i - 1 + 1 = i by omega] at this
  linarith

/-! ### Threads -/

theorem processRows_cons (f : Nat → List R → List R) (buf : List (List R)) (row : Nat)
    (rows : List Nat) : processRows f buf (row :: rows)
      = (processRow f buf row).bind fun b => processRows f b rows := by
  simp only [processRows, List.foldlM_cons]; rfl

theorem processRows_ok (f : Nat → List R → List R) (buf : List (List R)) (rows : List Nat)
    (hb : ∀ x ∈ rows, x < buf.length) (hn : rows.Nodup) :
    ∃ out, processRows f buf rows = some out ∧ out.length = buf.length ∧
      ∀ k, out[k]? = if k ∈ rows then (buf[k]?).map (f k) else buf[k]? := by
  induction rows generalizing buf with
  | nil => exact ⟨buf, rfl, rfl, by simp⟩
  | cons x rows ih =>
    rw [List.nodup_cons] at hn
    have hx : x < buf.length := hb x (by simp)
    obtain ⟨out, h1, h2, h3⟩ := ih (buf.set x (f x buf[x])) (fun y hy => by
      simpa using hb y (by simp [hy])) hn.2
    refine ⟨out, ?_, by simpa using h2, ?_⟩
    · rw [processRows_cons, processRow, List.getElem?_eq_getElem hx]
      exact h1
    · intro k
      rw [h3 k]
      by_cases hk : k = x
      · subst hk
        simp [hn.1, hx]
      · have hk' : ¬ x = k := fun e => hk e.symm
        simp [hk, List.getElem?_set_ne hk']

theorem processRows_oob (f : Nat → List R → List R) (buf : List (List R)) (rows : List Nat)
    (h : ∃ x ∈ rows, buf.length ≤ x) : processRows f buf rows = none := by
  induction rows generalizing buf with
  | nil => simp at h
  | cons x rows ih =>
    rw [processRows_cons, processRow]
    by_cases hx : x < buf.length
    · rw [List.getElem?_eq_getElem hx]
      simp only [Option.bind_some]
      apply ih
      obtain ⟨y, hy, hl⟩ := h
      rcases List.mem_cons.mp hy with rfl | hy
      · omega
      · exact ⟨y, hy, by simpa using hl⟩
    · rw [List.getElem?_eq_none (by omega)]
      rfl

theorem flatten_chunks (m per : Nat) :
    ((List.range m).map fun t => rowsFrom (t * per) (t * per + per)).flatten
      = List.range (m * per) := by
  have := flatMap_range_mul m per (fun i => [i])
  simp only [List.flatMap_singleton'] at this
  rw [this, List.flatMap_def]
  congr 1
  apply List.map_congr_left
  intro t _
  rw [rowsFrom, show t * per + per - t * per = per by omega]
  rw [← List.flatMap_singleton' ((List.range per).map _), List.flatMap_map]

theorem threadRows_flatten {nt b : Nat} (hnt : 1 ≤ nt) (h : ¬ (b = 5 ∧ 4 ≤ nt)) :
    (threadRows nt b).flatten = List.range b := by
  unfold threadRows
  by_cases hb : b = 0
  · subst hb; simp
  · rw [if_neg hb]
    simp only [List.flatten_append, flatten_chunks, List.flatten_cons, List.flatten_nil,
      List.append_nil]
    have hle : (min (min 4 nt) b - 1) * (1 + (b - 1) / min (min 4 nt) b) ≤ b := by
      have hn4 : min (min 4 nt) b ≤ 4 := by omega
      have hn1 : 1 ≤ min (min 4 nt) b := by omega
      have hb5 : b = 5 → min (min 4 nt) b ≠ 4 := by intro hb e; apply h; omega
      have hnb : min (min 4 nt) b ≤ b := by omega
      revert hn4 hn1 hb5 hnb
      generalize min (min 4 nt) b = n
      intro hn4 hn1 hb5 hnb
      interval_cases n <;> omega
    rw [rowsFrom]
    rw [← List.range_add]
    congr 1
    omega

/-- **C38 (threads).** Unless the batch has exactly 5 rows and at least 4 threads are available,
every row is processed by exactly one thread, so for every interleaving the call terminates
without touching other memory and returns the samples of every row. -/
theorem threads_ok {nt b : Nat} (hnt : 1 ≤ nt) (h : ¬ (b = 5 ∧ 4 ≤ nt))
    (f : Nat → List R → List R) (buf : List (List R)) (hbuf : buf.length = b)
    (rows : List Nat) (hrows : rows.Perm (threadRows nt b).flatten) :
    processRows f buf rows = some (buf.mapIdx f) := by
  rw [threadRows_flatten hnt h] at hrows
  obtain ⟨out, h1, h2, h3⟩ := processRows_ok f buf rows
    (fun x hx => by have := hrows.mem_iff.mp hx; rw [List.mem_range] at this; omega)
    (hrows.nodup_iff.mpr List.nodup_range)
  rw [h1]
  congr 1
  apply List.ext_getElem?
  intro k
  rw [h3 k, List.getElem?_mapIdx]
  split
  · rfl
  · rename_i hk
    rw [hrows.mem_iff, List.mem_range] at hk
    rw [List.getElem?_eq_none (by omega)]
    rfl

/-- **C38 (threads, the bug).** With 5 rows and at least 4 threads, a thread processes row 5, which
does not exist: every interleaving makes an out-of-bounds access. -/
theorem threads_oob {nt : Nat} (hnt : 4 ≤ nt) (f : Nat → List R → List R) (buf : List (List R))
    (hbuf : buf.length = 5) (rows : List Nat) (hrows : rows.Perm (threadRows nt 5).flatten) :
    processRows f buf rows = none := by
  apply processRows_oob
  refine ⟨5, hrows.mem_iff.mpr ?_, by omega⟩
  have : min (min 4 nt) 5 = 4 := by omega
  unfold threadRows
  simp only [this]
  decide

/-! ### CUDA work distribution -/

theorem visitedCuda_perm (grid bd T batch S : Nat) :
    (visitedCuda grid bd T batch S).Perm (chunked grid (T * bd) batch S fun _ => S) := by
  unfold visitedCuda chunked
  simp only
  apply List.Perm.flatMap_left
  intro blk _
  rw [show chunksPerCloud (T * bd) S = 1 + (S - 1) / (T * bd) from rfl,
    Nat.mul_comm (1 + (S - 1) / (T * bd)) batch]
  set cs := strideLoop blk grid (batch * (1 + (S - 1) / (T * bd)))
  set g : Nat → Nat → Option (Nat × Nat) := fun c p =>
    if c % (1 + (S - 1) / (T * bd)) * (T * bd) + p ≥ S then none
    else some (c / (1 + (S - 1) / (T * bd)), c % (1 + (S - 1) / (T * bd)) * (T * bd) + p)
  have fm : ∀ {α β : Type} (l : List α) (h : α → Option β),
      l.filterMap h = l.flatMap fun a => (h a).toList := by
    intro α β l h
    induction l with
    | nil => rfl
    | cons a l ih => cases ha : h a <;> simp [ha, ih, List.flatMap_cons]
  show ((List.range bd).flatMap fun tx => cs.flatMap fun c => (List.range T).filterMap fun t =>
    g c (tx + t * bd)).Perm ((List.range (T * bd)).flatMap fun t => cs.filterMap fun c =>
      if T * bd * (c % (1 + (S - 1) / (T * bd))) + t ≥ S then none else
        some (c / (1 + (S - 1) / (T * bd)), T * bd * (c % (1 + (S - 1) / (T * bd))) + t))
  have hg : ∀ c t, (if T * bd * (c % (1 + (S - 1) / (T * bd))) + t ≥ S then none else
        some (c / (1 + (S - 1) / (T * bd)), T * bd * (c % (1 + (S - 1) / (T * bd))) + t)) = g c t := by
    intro c t
    simp only [g, Nat.mul_comm (T * bd)]
  simp only [hg, fm]
  rw [flatMap_range_mul]
  apply Multiset.coe_eq_coe.mp
  simp only [← Multiset.coe_bind]
  have e : ∀ (t tx : Nat), t * bd + tx = tx + t * bd := fun _ _ => Nat.add_comm _ _
  simp only [e]
  rw [Multiset.bind_bind (List.range T : Multiset Nat) (List.range bd : Multiset Nat)]
  congr 1
  funext tx
  rw [Multiset.bind_bind]

/-- **C38 (CUDA).** Every (row, sample) slot is visited exactly once over all threads, so every
quantile is replaced by its sample exactly once. -/
theorem visitedCuda_spec {grid bd T batch S : Nat} (hg : 0 < grid) (hb : 0 < bd) (hT : 0 < T)
    (hS : 0 < S) :
    (visitedCuda grid bd T batch S).Nodup ∧
    ∀ n s, (n, s) ∈ visitedCuda grid bd T batch S ↔ n < batch ∧ s < S := by
  have h := chunked_spec hg (Nat.mul_pos hT hb) hS (N := batch) (fun _ => S) (fun _ _ => le_refl _)
  have hp := visitedCuda_perm grid bd T batch S
  exact ⟨hp.nodup_iff.mpr h.1, fun n s => by rw [hp.mem_iff, h.2]⟩

/-! ### The Python implementation -/

/-- Positions selected by a downward closed predicate. -/
theorem filter_initial (n : Nat) (q : Nat → Prop) [DecidablePred q]
    (hq : ∀ i j, i ≤ j → q j → q i) :
    ∀ i < n, q i ↔ i < ((List.range n).filter fun i => decide (q i)).length := by
  induction n with
  | zero => intro i hi; omega
  | succ n ih =>
    rw [List.range_succ, List.filter_append]
    by_cases hn : q n
    · have hall : (List.range n).filter (fun i => decide (q i)) = List.range n := by
        rw [List.filter_eq_self]
        intro i hi
        exact decide_eq_true (hq i n (List.mem_range.mp hi).le hn)
      intro i hi
      simp only [hall, List.length_append, List.length_range, List.filter_cons, hn, decide_true,
        if_true, List.filter_nil, List.length_singleton]
      exact ⟨fun _ => hi, fun _ => hq i n (by omega) hn⟩
    · have e : List.filter (fun i => decide (q i)) [n] = [] := by simp [hn]
      rw [e, List.append_nil]
      intro i hi
      by_cases hin : i = n
      · subst hin
        refine ⟨fun h => absurd h hn, fun h => ?_⟩
        have := List.length_filter_le (fun i => decide (q i)) (List.range i)
        rw [List.length_range] at this
        omega
      · exact ih i (by omega)

/-- **C38 (Python).** For `u` in `[0, 1]`, `sample_pdf_python` also returns a point inside a bin:
between edges `j` and `j + 1` (or exactly the last edge), hence between the first and last edge. -/
theorem samplePython_mem {r : Row R} (h : r.Ok) {eps u : R} (he : 0 < eps) (hu : 0 ≤ u)
    (hu1 : u ≤ 1) : r.b 0 ≤ samplePython r eps u ∧ samplePython r eps u ≤ r.b r.n := by
  set w := fun i => r.w i + eps with hw
  set total := ((List.range r.n).map w).sum with htot
  set cdf := fun i => ((List.range i).map fun k => w k / total).sum with hcdf
  have hsucc : ∀ i, cdf (i + 1) = cdf i + w i / total := by
    intro i; simp [hcdf, List.range_succ]
  have htpos : 0 < total := by
    have hp := h.pos
    have key : ∀ n, n ≤ r.n → 0 < n → 0 < ((List.range n).map w).sum := by
      intro n
      induction n with
      | zero => intro _ h0; omega
      | succ n ih =>
        intro h1 _
        have hwn : 0 < w n := by
          have := h.w n (by omega)
          simp only [hw]; linarith
        rw [List.range_succ, List.map_append, List.sum_append]
        rcases Nat.eq_zero_or_pos n with h0 | h0
        · subst h0; simpa using hwn
        · have := ih (by omega) h0
          simp only [List.map_cons, List.map_nil, List.sum_cons, List.sum_nil, add_zero]
          linarith
    exact key r.n (le_refl _) hp
  have hmono : ∀ i j, i ≤ j → j ≤ r.n → cdf i ≤ cdf j := by
    intro i j hij
    induction j, hij using Nat.le_induction with
    | base => intro _; exact le_refl _
    | succ j hij ih =>
      intro hj
      rw [hsucc]
      have : 0 ≤ w j / total := div_nonneg (by
        have := h.w j (by omega); simp only [hw]; linarith) htpos.le
      linarith [ih (by omega)]
  have hlast : cdf r.n = 1 := by
    have : cdf r.n = total / total := by
      simp only [hcdf, htot, div_eq_mul_inv]
      rw [List.sum_map_mul_right]
    rw [this, div_self htpos.ne']
  set inds := ((List.range (r.n + 1)).filter fun i => decide (cdf i ≤ u)).length with hinds
  have hin : ∀ i ≤ r.n, cdf i ≤ u ↔ i < inds := by
    have := filter_initial (r.n + 1) (fun i => cdf (min i r.n) ≤ u) (fun i j hij hj =>
      (hmono _ _ (by omega) (by omega)).trans hj)
    have e : (List.range (r.n + 1)).filter (fun i => decide (cdf (min i r.n) ≤ u))
        = (List.range (r.n + 1)).filter fun i => decide (cdf i ≤ u) := by
      apply List.filter_congr
      intro i hi
      rw [List.mem_range] at hi
      rw [Nat.min_eq_left (by omega)]
    rw [e] at this
    intro i hi
    have := this i (by omega)
    rw [Nat.min_eq_left hi] at this
    exact this
  have h0 : cdf 0 ≤ u := by simpa [hcdf] using hu
  have hi1 : 0 < inds := (hin 0 (by omega)).mp h0
  have hi2 : inds ≤ r.n + 1 := by
    have := List.length_filter_le (fun i => decide (cdf i ≤ u)) (List.range (r.n + 1))
    rw [List.length_range] at this
    exact this
  have hval : samplePython r eps u = r.b (inds - 1) + (u - cdf (inds - 1)) /
      (if cdf (min inds r.n) - cdf (inds - 1) < eps then 1 else
        cdf (min inds r.n) - cdf (inds - 1)) * (r.b (min inds r.n) - r.b (inds - 1)) := rfl
  rw [hval]
  have hlow : cdf (inds - 1) ≤ u := (hin _ (by omega)).mpr (by omega)
  have hb1 : r.b (inds - 1) ≤ r.b (min inds r.n) := edges_mono h.b (by omega) (by omega)
  have hb0 : r.b 0 ≤ r.b (inds - 1) := edges_mono h.b (by omega) (by omega)
  have hbn : r.b (min inds r.n) ≤ r.b r.n := edges_mono h.b (by omega) (le_refl _)
  set D := if cdf (min inds r.n) - cdf (inds - 1) < eps then 1 else
        cdf (min inds r.n) - cdf (inds - 1) with hD
  have hDpos : 0 < D := by
    rw [hD]; split
    · exact one_pos
    · rename_i hc; exact lt_of_lt_of_le he (not_lt.mp hc)
  have ht0 : 0 ≤ (u - cdf (inds - 1)) / D := div_nonneg (by linarith) hDpos.le
  have ht1 : (u - cdf (inds - 1)) / D ≤ 1 := by
    rw [div_le_one hDpos, hD]
    have hc0 : 0 ≤ cdf (inds - 1) := by
      have := hmono 0 (inds - 1) (by omega) (by omega)
      have e0 : cdf 0 = 0 := by simp [hcdf]
      linarith
    split
    · linarith
    · by_cases hc : inds ≤ r.n
      · have : u < cdf inds := by
          by_contra hcon
          exact absurd ((hin inds hc).mp (not_lt.mp hcon)) (lt_irrefl _)
        rw [Nat.min_eq_left hc]; linarith
      · rw [Nat.min_eq_right (by omega), hlast]; linarith
  have hd : 0 ≤ r.b (min inds r.n) - r.b (inds - 1) := by linarith
  constructor
  · nlinarith [mul_nonneg ht0 hd]
  · nlinarith [mul_le_mul_of_nonneg_right ht1 hd]

/-! ### Concrete cases -/

def exRow : Row ℚ := ⟨3, fun i => if i = 1 then 0 else 2, fun i => i * i⟩

theorem exRow_ok : exRow.Ok := by
  refine ⟨by decide, fun i _ => ?_, fun i _ => ?_⟩
  · simp only [exRow]; split <;> norm_num
  · simp only [exRow]; push_cast; nlinarith [(Nat.cast_nonneg i : (0:ℚ) ≤ i)]

example : sampleCuda exRow (1/10) (1/4) = 41/80 := by
  simp [sampleCuda, scan, finish, exRow, List.range, List.range.loop]; norm_num
example : threadRows 8 5 = [[0, 1], [2, 3], [4, 5], []] := by decide
example : threadRows 8 6 = [[0, 1], [2, 3], [4, 5], []] := by decide
example : threadRows 3 7 = [[0, 1, 2], [3, 4, 5], [6]] := by decide
example : 0 ≤ samplePython exRow 1 (1/2) ∧ samplePython exRow 1 (1/2) ≤ 9 := by
  have h := samplePython_mem exRow_ok (eps := 1) (u := 1/2) (by norm_num) (by norm_num) (by norm_num)
  have e0 : exRow.b 0 = 0 := by norm_num [exRow]
  have e1 : exRow.b exRow.n = 9 := by norm_num [exRow]
  rwa [e0, e1] at h

end P3D.SamplePdf
