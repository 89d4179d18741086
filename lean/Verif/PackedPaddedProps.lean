/-
Property C04: packed_to_padded / padded_to_packed kernels.
-/
import Verif.PackedPadded
import Verif.StructUtilsProps
import Mathlib.Algebra.Ring.Defs
import Mathlib.Data.List.Perm.Basic
import Mathlib.Tactic.Ring

namespace P3D.PackedPadded

open P3D.Mem P3D.StructUtils

variable {α : Type*}

/-- `first_idxs` of the concatenation of the ragged list `x`. -/
def firstIdxs (x : List (List α)) : List Nat := (List.range x.length).map (offset x)

/-! ### Helpers -/

theorem offset_succ (x : List (List α)) (b : Nat) (hb : b < x.length) :
    offset x (b+1) = offset x b + x[b].length := by
  have := take_succ_sum (x.map List.length) (i := b) (by simpa using hb)
  simpa [offset, List.map_take] using this

theorem offset_mono (x : List (List α)) {i j : Nat} (h : i ≤ j) : offset x i ≤ offset x j := by
  have := take_sum_mono (x.map List.length) h
  simpa [offset, List.map_take] using this

theorem offset_length (x : List (List α)) : offset x x.length = x.flatten.length := by
  simp [offset, List.length_flatten]

theorem segStart_firstIdxs (x : List (List α)) (b : Nat) (hb : b < x.length) :
    segStart (firstIdxs x) b = offset x b := by
  simp [segStart, firstIdxs, List.getD, hb]

theorem segEnd_firstIdxs (x : List (List α)) (b : Nat) (hb : b < x.length) :
    segEnd (firstIdxs x) x.flatten.length b = offset x (b+1) := by
  unfold segEnd
  by_cases h : b + 1 < x.length
  · simp [firstIdxs, List.getD, h]
  · have hlen : b + 1 = x.length := by omega
    simp [firstIdxs, hlen, offset]

theorem pairs_firstIdxs (x : List (List α)) (S : Nat) :
    pairs (firstIdxs x) x.flatten.length S =
      (List.range x.length).flatMap fun b =>
        (List.range (offset x (b+1) - offset x b)).map fun i => (b * S + i, offset x b + i) := by
  unfold pairs
  have hl : (firstIdxs x).length = x.length := by simp [firstIdxs]
  rw [hl, List.flatMap_def, List.flatMap_def]
  congr 1
  apply List.map_congr_left
  intro b hb
  have hb := List.mem_range.mp hb
  rw [segStart_firstIdxs x b hb, segEnd_firstIdxs x b hb]

theorem mem_pairs (x : List (List α)) (S : Nat) (p : Nat × Nat) :
    p ∈ pairs (firstIdxs x) x.flatten.length S ↔
      ∃ b i, ∃ (hb : b < x.length), i < x[b].length ∧ p = (b * S + i, offset x b + i) := by
  rw [pairs_firstIdxs]
  simp only [List.mem_flatMap, List.mem_range, List.mem_map]
  constructor
  · rintro ⟨b, hb, i, hi, rfl⟩
    refine ⟨b, i, hb, ?_, rfl⟩
    rw [offset_succ x b hb] at hi; omega
  · rintro ⟨b, i, hb, hi, rfl⟩
    exact ⟨b, hb, i, by rw [offset_succ x b hb]; omega, rfl⟩

theorem addr_inj {S b b' i i' : Nat} (hi : i < S) (hi' : i' < S)
    (h : b * S + i = b' * S + i') : b = b' ∧ i = i' := by
  have hb : b = b' := by
    have h1 : (b * S + i) / S = b := by
      rw [Nat.mul_comm, Nat.mul_add_div (by omega), Nat.div_eq_of_lt hi]; omega
    have h2 : (b' * S + i') / S = b' := by
      rw [Nat.mul_comm, Nat.mul_add_div (by omega), Nat.div_eq_of_lt hi']; omega
    rw [← h1, ← h2, h]
  subst hb
  exact ⟨rfl, by omega⟩

theorem offset_inj (x : List (List α)) {b b' i i' : Nat} (hb : b < x.length) (hb' : b' < x.length)
    (hi : i < x[b].length) (hi' : i' < x[b'].length)
    (h : offset x b + i = offset x b' + i') : b = b' ∧ i = i' := by
  have hbb : b = b' := by
    rcases Nat.lt_trichotomy b b' with hlt | heq | hgt
    · have := offset_mono x (show b+1 ≤ b' by omega); rw [offset_succ x b hb] at this; omega
    · exact heq
    · have := offset_mono x (show b'+1 ≤ b by omega); rw [offset_succ x b' hb'] at this; omega
  subst hbb
  exact ⟨rfl, by omega⟩

theorem pairs_nodup (x : List (List α)) (S : Nat) :
    (pairs (firstIdxs x) x.flatten.length S).Nodup := by
  rw [pairs_firstIdxs, List.nodup_flatMap]
  constructor
  · intro b _
    apply List.Nodup.map _ List.nodup_range
    intro i j h
    simpa using h
  · refine List.Pairwise.imp_of_mem ?_ List.nodup_range
    intro b b' hb hb' hne p hp hp'
    have hb := List.mem_range.mp hb
    have hb' := List.mem_range.mp hb'
    obtain ⟨i, hi, rfl⟩ := List.mem_map.mp hp
    obtain ⟨i', hi', h⟩ := List.mem_map.mp hp'
    have hi := List.mem_range.mp hi
    have hi' := List.mem_range.mp hi'
    rw [offset_succ x b hb] at hi
    rw [offset_succ x b' hb'] at hi'
    injection h with _ h
    exact hne (offset_inj x hb hb' (by omega) (by omega) h.symm).1

theorem pairs_fst_nodup (x : List (List α)) (S : Nat) (hS : ∀ y ∈ x, y.length ≤ S) :
    ((pairs (firstIdxs x) x.flatten.length S).map Prod.fst).Nodup := by
  refine List.Nodup.map_on ?_ (pairs_nodup x S)
  intro p hp q hq h
  obtain ⟨b, i, hb, hi, rfl⟩ := (mem_pairs x S p).mp hp
  obtain ⟨b', i', hb', hi', rfl⟩ := (mem_pairs x S q).mp hq
  have h1 := hS _ (List.getElem_mem hb)
  have h2 := hS _ (List.getElem_mem hb')
  obtain ⟨rfl, rfl⟩ := addr_inj (by omega) (by omega) h
  rfl

theorem pairs_snd_nodup (x : List (List α)) (S : Nat) :
    ((pairs (firstIdxs x) x.flatten.length S).map Prod.snd).Nodup := by
  refine List.Nodup.map_on ?_ (pairs_nodup x S)
  intro p hp q hq h
  obtain ⟨b, i, hb, hi, rfl⟩ := (mem_pairs x S p).mp hp
  obtain ⟨b', i', hb', hi', rfl⟩ := (mem_pairs x S q).mp hq
  obtain ⟨rfl, rfl⟩ := offset_inj x hb hb' hi hi' h
  rfl

theorem mapM_load_ok (src : List α) (ps : List (Nat × Nat)) (hs : ∀ p ∈ ps, p.2 < src.length) :
    ∃ ws, ps.mapM (load src) = some ws ∧ ws.map Prod.fst = ps.map Prod.fst ∧
      (∀ p ∈ ps, ∃ v, src[p.2]? = some v ∧ (p.1, v) ∈ ws) := by
  induction ps with
  | nil => exact ⟨[], rfl, rfl, by simp⟩
  | cons p ps ih =>
    obtain ⟨ws, h1, h2, h3⟩ := ih (fun q hq => hs q (by simp [hq]))
    have hp : p.2 < src.length := hs p (by simp)
    refine ⟨(p.1, src[p.2]) :: ws, ?_, by simp [h2], ?_⟩
    · rw [List.mapM_cons, h1]
      simp [load, List.getElem?_eq_getElem hp]
    · intro q hq
      rcases List.mem_cons.mp hq with rfl | hq
      · exact ⟨_, List.getElem?_eq_getElem hp, by simp⟩
      · obtain ⟨v, hv, hv'⟩ := h3 q hq
        exact ⟨v, hv, by simp [hv']⟩

theorem copyAll_ok (dst src : List α) (ps : List (Nat × Nat))
    (hd : ∀ p ∈ ps, p.1 < dst.length) (hs : ∀ p ∈ ps, p.2 < src.length)
    (hnd : (ps.map Prod.fst).Nodup) :
    ∃ out, copyAll dst src ps = some out ∧ out.length = dst.length ∧
      (∀ p ∈ ps, out[p.1]? = src[p.2]?) ∧
      (∀ k, k ∉ ps.map Prod.fst → out[k]? = dst[k]?) := by
  obtain ⟨ws, h1, h2, h3⟩ := mapM_load_ok src ps hs
  obtain ⟨out, g1, g2, g3, g4⟩ := writeAll_ok dst ws (by
    intro w hw
    have : w.1 ∈ ps.map Prod.fst := by rw [← h2]; exact List.mem_map_of_mem hw
    obtain ⟨p, hp, hpe⟩ := List.mem_map.mp this
    rw [← hpe]; exact hd p hp) (by rw [h2]; exact hnd)
  refine ⟨out, by rw [copyAll, h1]; exact g1, g2, ?_, ?_⟩
  · intro p hp
    obtain ⟨v, hv, hv'⟩ := h3 p hp
    rw [hv]; exact g3 _ hv'
  · intro k hk; exact g4 k (by rw [h2]; exact hk)

theorem expectedRow_length (S : Nat) (v : α) (y : List α) (h : y.length ≤ S) :
    (expectedRow S v y).length = S := by
  simp [expectedRow]; omega

theorem flatten_uniform_length (S : Nat) (x : List (List α)) (h : ∀ y ∈ x, y.length = S) :
    x.flatten.length = x.length * S := by
  induction x with
  | nil => simp
  | cons a x ih =>
    simp only [List.flatten_cons, List.length_append, List.length_cons,
      ih (fun y hy => h y (by simp [hy])), h a (by simp)]
    ring

theorem exists_offset (x : List (List α)) (k : Nat) (hk : k < x.flatten.length) :
    ∃ b i, ∃ (hb : b < x.length), i < x[b].length ∧ k = offset x b + i := by
  induction x generalizing k with
  | nil => simp at hk
  | cons a x ih =>
    by_cases h : k < a.length
    · exact ⟨0, k, by simp, by simpa using h, by simp [offset]⟩
    · obtain ⟨b, i, hb, hi, he⟩ := ih (k - a.length) (by simp at hk ⊢; omega)
      refine ⟨b+1, i, by simpa using hb, by simpa using hi, ?_⟩
      simp only [offset, List.take_succ_cons, List.map_cons, List.sum_cons] at he ⊢
      omega

/-! ### C04 -/

/-- C04: with consistent `first_idxs` and `max_size` at least the largest segment, for *every*
schedule of the copies (CPU order or any GPU interleaving) `packed_to_padded` performs only
in-bounds accesses and returns each segment followed by zeros. -/
theorem packedToPadded_correct (zero : α) (x : List (List α)) (S : Nat)
    (hS : ∀ y ∈ x, y.length ≤ S) (ps : List (Nat × Nat))
    (hps : ps.Perm (pairs (firstIdxs x) x.flatten.length S)) :
    packedToPaddedWith ps zero x.flatten (firstIdxs x) S
      = some (x.map (expectedRow S zero)).flatten := by
  have hl : (firstIdxs x).length = x.length := by simp [firstIdxs]
  have hrows : ∀ y ∈ x.map (expectedRow S zero), y.length = S := by
    intro y hy
    obtain ⟨z, hz, rfl⟩ := List.mem_map.mp hy
    exact expectedRow_length S zero z (hS z hz)
  have hflen := flatten_uniform_length S _ hrows
  rw [List.length_map] at hflen
  have hmem : ∀ p, p ∈ ps ↔ ∃ b i, ∃ (hb : b < x.length), i < x[b].length ∧
      p = (b * S + i, offset x b + i) := fun p => by rw [hps.mem_iff, mem_pairs]
  obtain ⟨out, h1, h2, h3, h4⟩ := copyAll_ok (List.replicate ((firstIdxs x).length * S) zero)
    x.flatten ps (by
      intro p hp
      obtain ⟨b, i, hb, hi, rfl⟩ := (hmem p).mp hp
      have hbS := hS _ (List.getElem_mem hb)
      simp only [List.length_replicate, hl]
      calc b * S + i < b * S + S := by omega
        _ = (b+1) * S := by ring
        _ ≤ x.length * S := Nat.mul_le_mul_right _ hb)
    (by
      intro p hp
      obtain ⟨b, i, hb, hi, rfl⟩ := (hmem p).mp hp
      have := offset_mono x (show b+1 ≤ x.length by omega)
      rw [offset_succ x b hb, offset_length] at this
      show offset x b + i < _
      omega)
    ((hps.map Prod.fst).nodup_iff.mpr (pairs_fst_nodup x S hS))
  unfold packedToPaddedWith
  rw [h1]
  congr 1
  simp only [List.length_replicate, hl] at h2
  apply List.ext_getElem?
  intro k
  by_cases hk : k < x.length * S
  · have hS0 : 0 < S := by rcases Nat.eq_zero_or_pos S with h | h
                           · subst h; simp at hk
                           · exact h
    have hb : k / S < x.length := Nat.div_lt_of_lt_mul (by rw [Nat.mul_comm]; exact hk)
    have hi : k % S < S := Nat.mod_lt _ hS0
    have hkk : k = (k / S) * S + k % S := by rw [Nat.mul_comm]; exact (Nat.div_add_mod k S).symm
    have hexp : (x.map (expectedRow S zero)).flatten[k]? =
        (expectedRow S zero x[k / S])[k % S]? := by
      have := flatten_uniform_getElem? S _ hrows (k / S) (k % S) (by simpa using hb) hi
      rw [Nat.add_comm, ← hkk] at this
      rw [this]; simp
    rw [hexp]
    by_cases hin : k % S < x[k / S].length
    · have := h3 (k / S * S + k % S, offset x (k / S) + k % S)
        ((hmem _).mpr ⟨k / S, k % S, hb, hin, rfl⟩)
      simp only [← hkk] at this
      rw [this, flatten_getElem?_offset x _ _ hb hin]
      simp only [expectedRow]
      rw [List.getElem?_append_left hin, List.getElem?_eq_getElem hin]
    · rw [h4 k (by
        intro hc
        obtain ⟨p, hp, hpk⟩ := List.mem_map.mp hc
        obtain ⟨b, i, hb', hi', rfl⟩ := (hmem p).mp hp
        have hbS := hS _ (List.getElem_mem hb')
        have := addr_inj (S := S) (b := b) (i := i) (b' := k / S) (i' := k % S) (by omega) hi
          (by rw [← hkk]; exact hpk)
        obtain ⟨rfl, rfl⟩ := this
        exact hin hi')]
      simp only [expectedRow]
      rw [List.getElem?_append_right (by omega)]
      rw [List.getElem?_replicate, List.getElem?_replicate, hl, if_pos hk, if_pos (by omega)]
  · rw [List.getElem?_eq_none (by omega), List.getElem?_eq_none (by omega)]

/-- C04: `padded_to_packed` on any padded tensor of width `S` whose segment sizes fit returns, for
every schedule, exactly the leading rows of each batch element, whatever the padding contains, and
performs only in-bounds accesses.  (`g` is the padded batch; element `b` has `x[b].length` valid
rows.) -/
theorem paddedToPacked_correct (zero : α) (x g : List (List α)) (S : Nat)
    (hlen : g.length = x.length) (hg : ∀ r ∈ g, r.length = S)
    (hS : ∀ y ∈ x, y.length ≤ S) (ps : List (Nat × Nat))
    (hps : ps.Perm (pairs (firstIdxs x) x.flatten.length S)) :
    paddedToPackedWith ps zero g.flatten x.flatten.length
      = some (List.zipWith (fun row n => row.take n) g (x.map List.length)).flatten := by
  have hmem : ∀ p, p ∈ ps.map Prod.swap ↔ ∃ b i, ∃ (hb : b < x.length), i < x[b].length ∧
      p = (offset x b + i, b * S + i) := fun p => by
    rw [(hps.map Prod.swap).mem_iff, List.mem_map]
    constructor
    · rintro ⟨q, hq, rfl⟩
      obtain ⟨b, i, hb, hi, rfl⟩ := (mem_pairs x S q).mp hq
      exact ⟨b, i, hb, hi, rfl⟩
    · rintro ⟨b, i, hb, hi, rfl⟩
      exact ⟨(b * S + i, offset x b + i), (mem_pairs x S _).mpr ⟨b, i, hb, hi, rfl⟩, rfl⟩
  have hglen := flatten_uniform_length S g hg
  set y := List.zipWith (fun row n => row.take n) g (x.map List.length) with hy
  have hylen : y.length = x.length := by simp [hy, hlen]
  have hyget : ∀ b (hb : b < x.length), y[b]'(by omega) = (g[b]'(by omega)).take x[b].length := by
    intro b hb; simp [hy]
  have hylens : y.map List.length = x.map List.length := by
    apply List.ext_getElem (by simp [hylen])
    intro b h1 h2
    have hb : b < x.length := by simpa using h2
    have hgb : (g[b]'(by omega)).length = S := hg _ (List.getElem_mem _)
    simp only [List.getElem_map, hyget b hb, List.length_take, hgb]
    have := hS _ (List.getElem_mem hb)
    omega
  have hoff : ∀ b, offset y b = offset x b := by
    intro b; simp only [offset, List.map_take, hylens]
  have hyflen : y.flatten.length = x.flatten.length := by
    rw [List.length_flatten, List.length_flatten, hylens]
  obtain ⟨out, h1, h2, h3, h4⟩ := copyAll_ok (List.replicate x.flatten.length zero)
    g.flatten (ps.map Prod.swap) (by
      intro p hp
      obtain ⟨b, i, hb, hi, rfl⟩ := (hmem p).mp hp
      have := offset_mono x (show b+1 ≤ x.length by omega)
      rw [offset_succ x b hb, offset_length] at this
      simp only [List.length_replicate]
      omega)
    (by
      intro p hp
      obtain ⟨b, i, hb, hi, rfl⟩ := (hmem p).mp hp
      have hbS := hS _ (List.getElem_mem hb)
      rw [hglen, hlen]
      calc b * S + i < b * S + S := by omega
        _ = (b+1) * S := by ring
        _ ≤ x.length * S := Nat.mul_le_mul_right _ hb)
    (by
      have : (ps.map Prod.swap).map Prod.fst = ps.map Prod.snd := by
        rw [List.map_map]; rfl
      rw [this]
      exact (hps.map Prod.snd).nodup_iff.mpr (pairs_snd_nodup x S))
  unfold paddedToPackedWith
  rw [h1]
  congr 1
  simp only [List.length_replicate] at h2
  apply List.ext_getElem?
  intro k
  by_cases hk : k < x.flatten.length
  · obtain ⟨b, i, hb, hi, rfl⟩ := exists_offset x k hk
    have hbS := hS _ (List.getElem_mem hb)
    rw [h3 (offset x b + i, b * S + i) ((hmem _).mpr ⟨b, i, hb, hi, rfl⟩)]
    have hyb : i < (y[b]'(by omega)).length := by
      rw [hyget b hb, List.length_take, hg _ (List.getElem_mem (by omega))]; omega
    have := flatten_getElem?_offset y b i (by omega) hyb
    rw [hoff] at this
    rw [this]
    have h5 := flatten_uniform_getElem? S g hg b i (by omega) (by omega)
    rw [Nat.add_comm] at h5
    show g.flatten[b * S + i]? = _
    rw [h5, ← List.getElem?_eq_getElem hyb, hyget b hb, List.getElem?_take, if_pos hi]
  · rw [List.getElem?_eq_none (by omega), List.getElem?_eq_none (by omega)]

/-- C04: `padded_to_packed` inverts `packed_to_padded`, for every pair of schedules. -/
theorem packedToPadded_roundtrip (zero : α) (x : List (List α)) (S : Nat)
    (hS : ∀ y ∈ x, y.length ≤ S) (ps qs : List (Nat × Nat))
    (hps : ps.Perm (pairs (firstIdxs x) x.flatten.length S))
    (hqs : qs.Perm (pairs (firstIdxs x) x.flatten.length S)) :
    (packedToPaddedWith ps zero x.flatten (firstIdxs x) S).bind
      (fun padded => paddedToPackedWith qs zero padded x.flatten.length) = some x.flatten := by
  rw [packedToPadded_correct zero x S hS ps hps, Option.bind_some,
    paddedToPacked_correct zero x _ S (by simp) ?_ hS qs hqs, zipWith_take_expected]
  intro y hy
  obtain ⟨z, hz, rfl⟩ := List.mem_map.mp hy
  exact expectedRow_length S zero z (hS z hz)

/-- Euclidean inner product of two flat buffers. -/
def dot {K : Type*} [Semiring K] (a b : List K) : K := (List.zipWith (· * ·) a b).sum

theorem dot_append {K : Type*} [Semiring K] (a b c d : List K) (h : a.length = c.length) :
    dot (a ++ b) (c ++ d) = dot a c + dot b d := by
  simp [dot, List.zipWith_append h]

theorem dot_replicate_zero {K : Type*} [Semiring K] (n : Nat) (b : List K) :
    dot (List.replicate n 0) b = 0 := by
  induction n generalizing b with
  | zero => simp [dot]
  | succ n ih =>
    cases b with
    | nil => simp [dot]
    | cons c b =>
      have := ih b
      simp only [dot] at this ⊢
      simp [List.replicate_succ, this]

/-- C04: each kernel is the adjoint of the other, so the registered backward passes compute the exact
vector-Jacobian product: `⟨packed_to_padded x, g⟩ = ⟨x, padded_to_packed g⟩` for every `x`, every
cotangent `g`, every schedule. -/
theorem packedToPadded_adjoint {K : Type*} [Semiring K] (x g : List (List K)) (S : Nat)
    (hlen : g.length = x.length) (hg : ∀ r ∈ g, r.length = S)
    (hS : ∀ y ∈ x, y.length ≤ S) (ps qs : List (Nat × Nat))
    (hps : ps.Perm (pairs (firstIdxs x) x.flatten.length S))
    (hqs : qs.Perm (pairs (firstIdxs x) x.flatten.length S)) :
    ∃ fwd bwd, packedToPaddedWith ps 0 x.flatten (firstIdxs x) S = some fwd ∧
      paddedToPackedWith qs 0 g.flatten x.flatten.length = some bwd ∧
      dot fwd g.flatten = dot x.flatten bwd := by
  refine ⟨_, _, packedToPadded_correct 0 x S hS ps hps,
    paddedToPacked_correct 0 x g S hlen hg hS qs hqs, ?_⟩
  clear hps hqs
  induction x generalizing g with
  | nil => simp [dot]
  | cons a x ih =>
    cases g with
    | nil => simp at hlen
    | cons r g =>
      have hr : r.length = S := hg r (by simp)
      have ha : a.length ≤ S := hS a (by simp)
      simp only [List.map_cons, List.flatten_cons, List.zipWith_cons_cons]
      rw [dot_append _ _ _ _ (by rw [expectedRow_length S 0 a ha, hr]),
        dot_append _ _ _ _ (by simp; omega),
        ih g (by simpa using hlen) (fun s hs => hg s (by simp [hs]))
          (fun y hy => hS y (by simp [hy]))]
      congr 1
      conv_lhs => rw [← List.take_append_drop a.length r]
      rw [expectedRow, dot_append _ _ _ _ (by simp; omega), dot_replicate_zero, add_zero]

/-- C04: the guard is needed. If the last batch element is longer than `max_size`, the kernel writes
past the end of the output buffer (no check in the C++ code). -/
theorem packedToPadded_overflow (zero : α) (x : List (List α)) (last : List α) (S : Nat)
    (h : S < last.length) (ps : List (Nat × Nat))
    (hps : ps.Perm (pairs (firstIdxs (x ++ [last])) (x ++ [last]).flatten.length S)) :
    packedToPaddedWith ps zero (x ++ [last]).flatten (firstIdxs (x ++ [last])) S = none := by
  have hmem : (x.length * S + S, offset (x ++ [last]) x.length + S) ∈ ps := by
    rw [hps.mem_iff, mem_pairs]
    exact ⟨x.length, S, by simp, by simpa using h, rfl⟩
  obtain ⟨ws, h1, h2, _⟩ := mapM_load_ok (x ++ [last]).flatten ps (by
    intro p hp
    rw [hps.mem_iff, mem_pairs] at hp
    obtain ⟨b, i, hb, hi, rfl⟩ := hp
    have := offset_mono (x ++ [last]) (show b+1 ≤ (x ++ [last]).length by omega)
    rw [offset_succ _ b hb, offset_length] at this
    show offset _ b + i < _
    omega)
  unfold packedToPaddedWith copyAll
  rw [h1, Option.bind_some, writeAll_eq_none_iff]
  have : x.length * S + S ∈ ws.map Prod.fst := by
    rw [h2]; exact List.mem_map_of_mem hmem
  obtain ⟨w, hw, hwe⟩ := List.mem_map.mp this
  refine ⟨w, hw, ?_⟩
  rw [hwe]
  simp [firstIdxs]; ring_nf; omega

example : packedToPadded 0 [1, 2, 3, 4, 5] [0, 2, 2] 3 = some [1, 2, 0, 0, 0, 0, 3, 4, 5] ∧
    firstIdxs [[1, 2], [], [3, 4, 5]] = [0, 2, 2] ∧
    paddedToPacked 0 [1, 2, 9, 9, 9, 9, 3, 4, 5] [0, 2, 2] 3 5 = some [1, 2, 3, 4, 5] := by
  decide

/-- C04: with a too small `max_size` a non-final element spills into the next element's rows. -/
example : packedToPadded 0 [1, 2, 3] [0, 2] 1 = some [1, 3] := by decide

end P3D.PackedPadded
