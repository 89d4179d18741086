/-
Model of the plotting of batches: which element is drawn in which subplot, the bounds of the axes, the viewpoint of the figure, the points of cameras and rays.

* `pytorch3d/vis/plotly_vis.py:30-65` (_get_len, _is_heterogeneous_ray_bundle), `68-82` (get_camera_wireframe), `106-409` (plot_scene: 302-317 viewpoints, 362-397 the camera of a subplot)
* `pytorch3d/vis/plotly_vis.py:413-562` (plot_batch_individually), `565-632` (_add_struct_from_batch), `635-705` (_add_mesh_trace: used vertices and bounds)
* `pytorch3d/vis/plotly_vis.py:771-823` (_add_camera_trace), `826-960` (_add_ray_bundle_trace), `963-991` (_gen_fig_with_subplots), `994-1032` (_update_axes_bounds), `1035-1060`
  (_scale_camera_to_bounds)

A structure is its batch size; what is drawn is the pair (number of the structure in the list, number of the batch element).  A dictionary is the list of its items in insertion order.
Numbers form an ordered field.  Rows of NaNs and uninitialised rows are values of their own.  Not modelled: plotly, colours, markers, lighting, the axis arguments of the user (they may
override the range), empty meshes and meshes without faces (the mean of nothing is NaN), floats.
-/
import Mathlib.Algebra.Order.Field.Basic
import Mathlib.Algebra.Order.BigOperators.Group.List
import Mathlib.Data.List.Nodup
import Mathlib.Data.List.Induction
import Mathlib.Tactic.Ring
import Mathlib.Tactic.FieldSimp
import Mathlib.Tactic.Linarith
import Mathlib.Tactic.NormNum
import Verif.Vec3

set_option linter.unusedSectionVars false

namespace P3D.PlotlyVis

inductive Err
  | value | zeroDiv
  deriving DecidableEq, Repr

/-! ## Which element is drawn where -/

/-- One item of a subplot: number of the structure in the list, number of the batch element. -/
abbrev Item := Nat × Nat

/-- The size checks, `plotly_vis.py:490-512`, for a list: every size is one or the largest, and the largest is positive; `none` is the early return for an empty list. -/
def maxSize (lens : List Nat) : Except Err (Option Nat) :=
  if lens = [] then .ok none
  else if lens.any (fun n => decide (n ≠ 1 ∧ n ≠ lens.foldl max 0)) then .error .value
  else if lens.foldl max 0 = 0 then .error .value
  else .ok (some (lens.foldl max 0))

/-- The items of subplot `scene`, `plotly_vis.py:533-550` with the element `min(scene_num, len - 1)` of `_add_struct_from_batch`: the test compares the number of the structure in the list. -/
def sceneItems (extend : Bool) (lens : List Nat) (scene : Nat) : List Item :=
  (lens.zipIdx).filterMap fun p => if p.1 ≤ p.2 ∧ extend = false then none else some (p.2, min scene (p.1 - 1))

/-- `scene_dictionary[title] = …`: a new title is appended, an old one keeps its place and gets the new items. -/
def put {α β : Type} [DecidableEq α] (d : List (α × β)) (k : α) (v : β) : List (α × β) :=
  if k ∈ d.map (·.1) then d.map (fun e => if e.1 = k then (k, v) else e) else d ++ [(k, v)]

/-- The loop over the subplots, `plotly_vis.py:524-558`, with the titles of the subplots. -/
def scenes {α : Type} [DecidableEq α] (extend : Bool) (lens : List Nat) (title : Nat → α) (n : Nat) : List (α × List Item) :=
  (List.range n).foldl (fun d s => put d (title s) (sceneItems extend lens s)) []

/-- `plot_batch_individually` on a list, `plotly_vis.py:490-562`, up to `plot_scene`: `titles` are the titles given (none or empty: numbered ones). -/
def plotBatch {α : Type} [DecidableEq α] (numbered : Nat → α) (extend : Bool) (lens : List Nat) (titles : List α) : Except Err (List (α × List Item)) :=
  match maxSize lens with
  | .error e => .error e
  | .ok none => .ok []
  | .ok (some n) =>
    if titles ≠ [] ∧ titles.length ≠ n then .error .value
    else .ok (scenes extend lens (fun s => if titles = [] then numbered s else titles.getD s (numbered s)) n)

/-- What the documentation promises for subplot `s`: structures of size one everywhere if `extend`, in the first subplot otherwise; the others their element `s`. -/
def promised (extend : Bool) (lens : List Nat) (s : Nat) (it : Item) : Prop :=
  ∃ n : Nat, lens[it.1]? = some n ∧ ((n = 1 ∧ it.2 = 0 ∧ (extend = true ∨ s = 0)) ∨ (n ≠ 1 ∧ it.2 = s ∧ s < n))

theorem mem_sceneItems (extend : Bool) (lens : List Nat) (s : Nat) (it : Item) :
    it ∈ sceneItems extend lens s ↔ ∃ n : Nat, lens[it.1]? = some n ∧ (extend = true ∨ it.1 < n) ∧ it.2 = min s (n - 1) := by
  obtain ⟨i, e⟩ := it
  simp only [sceneItems, List.mem_filterMap, Prod.exists]
  constructor
  · rintro ⟨n, j, hm, h⟩
    rw [List.mk_mem_zipIdx_iff_getElem?] at hm
    split_ifs at h with hc
    simp only [Option.some.injEq, Prod.mk.injEq] at h
    obtain ⟨rfl, rfl⟩ := h
    refine ⟨n, hm, ?_, rfl⟩
    cases extend
    · right
      simp only [and_true] at hc
      omega
    · exact Or.inl rfl
  · rintro ⟨n, hn, h1, h2⟩
    refine ⟨n, i, List.mk_mem_zipIdx_iff_getElem?.mpr hn, ?_⟩
    rw [if_neg]
    · rw [show e = min s (n - 1) from h2]
    · rintro ⟨a, b⟩
      rcases h1 with h1 | h1
      · rw [h1] at b
        cases b
      · have : i < n := h1
        have : n ≤ i := a
        omega

theorem foldl_max_le (l : List Nat) (a m : Nat) (ha : a ≤ m) (h : ∀ x ∈ l, x ≤ m) : l.foldl max a ≤ m := by
  induction l generalizing a with
  | nil => exact ha
  | cons x l ih => exact ih (max a x) (max_le ha (h x (by simp))) (fun y hy => h y (by simp [hy]))

theorem le_foldl_max (l : List Nat) (a : Nat) : a ≤ l.foldl max a ∧ ∀ x ∈ l, x ≤ l.foldl max a := by
  induction l generalizing a with
  | nil => exact ⟨le_rfl, by simp⟩
  | cons x l ih =>
    have h := ih (max a x)
    refine ⟨le_trans (le_max_left a x) h.1, fun y hy => ?_⟩
    rcases List.mem_cons.mp hy with rfl | hy
    · exact le_trans (le_max_right a y) h.1
    · exact h.2 y hy

theorem foldl_max_mem (l : List Nat) (a : Nat) : l.foldl max a = a ∨ l.foldl max a ∈ l := by
  induction l generalizing a with
  | nil => exact Or.inl rfl
  | cons x l ih =>
    rcases ih (max a x) with h | h
    · rcases le_total a x with hx | hx
      · right
        rw [List.foldl_cons, h, max_eq_right hx]
        simp
      · left
        rw [List.foldl_cons, h, max_eq_left hx]
    · right
      rw [List.foldl_cons]
      simp [h]

/-- The sizes are accepted exactly when one positive size occurs and every other structure has that size or size one. -/
theorem maxSize_ok (lens : List Nat) (n : Nat) :
    maxSize lens = .ok (some n) ↔ 0 < n ∧ n ∈ lens ∧ ∀ m ∈ lens, m = 1 ∨ m = n := by
  have hm := le_foldl_max lens 0
  have hx := foldl_max_mem lens 0
  unfold maxSize
  by_cases h0 : lens = []
  · subst h0
    simp
  rw [if_neg h0]
  by_cases h1 : lens.any (fun n => decide (n ≠ 1 ∧ n ≠ lens.foldl max 0)) = true
  · rw [if_pos h1]
    simp only [reduceCtorEq, false_iff, not_and]
    intro hn hmem hall
    rw [List.any_eq_true] at h1
    obtain ⟨k, hk, hk2⟩ := h1
    simp only [decide_eq_true_eq] at hk2
    have hk3 := (hall k hk).resolve_left hk2.1
    subst hk3
    refine hk2.2 (le_antisymm (hm.2 k hk) (foldl_max_le lens 0 k (by omega) (fun x hx' => ?_)))
    rcases hall x hx' with h | h <;> omega
  · rw [if_neg h1]
    have h1' : ∀ m ∈ lens, m = 1 ∨ m = lens.foldl max 0 := by
      intro m hmm
      by_contra hc
      refine h1 (List.any_eq_true.mpr ⟨m, hmm, ?_⟩)
      simp only [decide_eq_true_eq]
      exact not_or.mp hc
    by_cases h2 : lens.foldl max 0 = 0
    · rw [if_pos h2]
      simp only [reduceCtorEq, false_iff, not_and]
      intro hn hmem
      have := hm.2 n hmem
      omega
    · rw [if_neg h2]
      simp only [Except.ok.injEq, Option.some.injEq]
      constructor
      · rintro rfl
        exact ⟨by omega, hx.resolve_left h2, h1'⟩
      · rintro ⟨hn, hmem, hall⟩
        refine le_antisymm (foldl_max_le lens 0 n (by omega) (fun x hx' => ?_)) (hm.2 n hmem)
        rcases hall x hx' with h | h <;> omega

example : maxSize [1, 3, 3] = .ok (some 3) ∧ maxSize [2, 3] = .error .value ∧ maxSize [] = .ok none ∧ maxSize [0] = .error .value := by decide

/-- With `extend_struct` (the default) every subplot holds exactly what the documentation promises. -/
theorem extend_ok (lens : List Nat) (n s : Nat) (h : maxSize lens = .ok (some n)) (hs : s < n) (it : Item) :
    it ∈ sceneItems true lens s ↔ promised true lens s it := by
  obtain ⟨hn, -, hall⟩ := (maxSize_ok lens n).mp h
  rw [mem_sceneItems, promised]
  constructor
  · rintro ⟨m, hm, -, h2⟩
    refine ⟨m, hm, ?_⟩
    rcases hall m (List.mem_of_getElem? hm) with rfl | rfl
    · exact Or.inl ⟨rfl, by omega, Or.inl rfl⟩
    · by_cases h1 : m = 1
      · exact Or.inl ⟨h1, by omega, Or.inl rfl⟩
      · exact Or.inr ⟨h1, by omega, hs⟩
  · rintro ⟨m, hm, h2⟩
    refine ⟨m, hm, Or.inl rfl, ?_⟩
    rcases h2 with ⟨rfl, h3, -⟩ | ⟨-, h3, h4⟩ <;> omega

example : sceneItems true [1, 3] 2 = [(0, 0), (1, 2)] := by decide

/-- Without `extend_struct` a structure is drawn in all subplots or in none: its place in the list is compared with its size. -/
theorem noextend_all_or_none (lens : List Nat) (i n : Nat) (h : lens[i]? = some n) (s : Nat) :
    (∃ e, (i, e) ∈ sceneItems false lens s) ↔ i < n := by
  constructor
  · rintro ⟨e, he⟩
    obtain ⟨m, hm, h1, -⟩ := (mem_sceneItems false lens s (i, e)).mp he
    rw [h] at hm
    cases hm
    rcases h1 with h1 | h1
    · cases h1
    · exact h1
  · intro hi
    exact ⟨min s (n - 1), (mem_sceneItems false lens s (i, min s (n - 1))).mpr ⟨n, h, Or.inr hi, rfl⟩⟩

/-- Without `extend_struct` the subplots hold what the documentation promises exactly when no structure had to be treated differently and none is too far down the list: all have the same size
`n` and there are at most `n` of them. -/
theorem noextend_ok_iff (lens : List Nat) (n : Nat) (h : maxSize lens = .ok (some n)) :
    (∀ s < n, ∀ it, it ∈ sceneItems false lens s ↔ promised false lens s it) ↔ (∀ m ∈ lens, m = n) ∧ lens.length ≤ n := by
  obtain ⟨hn, -, hall⟩ := (maxSize_ok lens n).mp h
  constructor
  · intro hp
    have key : ∀ (i m : Nat), lens[i]? = some m → m = n ∧ i < n := by
      intro i m hm
      rcases hall m (List.mem_of_getElem? hm) with hm1 | hmn
      · -- a structure of size one is promised in the first subplot, so it must be the first of the list
        subst hm1
        have h0 := (hp 0 hn (i, 0)).mpr ⟨1, hm, Or.inl ⟨rfl, rfl, Or.inr rfl⟩⟩
        have hi := (noextend_all_or_none lens i 1 hm 0).mp ⟨0, h0⟩
        by_cases hn1 : n = 1
        · exact ⟨hn1.symm, by omega⟩
        · obtain ⟨e, he⟩ := (noextend_all_or_none lens i 1 hm 1).mpr hi
          obtain ⟨m, hm', h3⟩ := (hp 1 (by omega) (i, e)).mp he
          rw [hm] at hm'
          cases hm'
          rcases h3 with ⟨-, -, h4 | h4⟩ | ⟨h4, -⟩
          · cases h4
          · omega
          · exact absurd rfl h4
      · subst hmn
        refine ⟨rfl, ?_⟩
        have h0 : promised false lens 0 (i, 0) := by
          refine ⟨m, hm, ?_⟩
          by_cases h1 : m = 1
          · exact Or.inl ⟨h1, rfl, Or.inr rfl⟩
          · exact Or.inr ⟨h1, rfl, hn⟩
        exact (noextend_all_or_none lens i m hm 0).mp ⟨0, (hp 0 hn (i, 0)).mpr h0⟩
    refine ⟨fun m hm => ?_, ?_⟩
    · obtain ⟨i, hi⟩ := List.getElem?_of_mem hm
      exact (key i m hi).1
    · by_contra hc
      have hlt : n < lens.length := by omega
      have := (key n lens[n] (List.getElem?_eq_getElem hlt)).2
      omega
  · rintro ⟨ha, hl⟩ s hs it
    rw [mem_sceneItems, promised]
    constructor
    · rintro ⟨m, hm, -, h2⟩
      refine ⟨m, hm, ?_⟩
      have := ha m (List.mem_of_getElem? hm)
      subst this
      by_cases h1 : m = 1
      · exact Or.inl ⟨h1, by omega, Or.inr (by omega)⟩
      · exact Or.inr ⟨h1, by omega, hs⟩
    · rintro ⟨m, hm, h2⟩
      have hmn := ha m (List.mem_of_getElem? hm)
      have hlt : it.1 < lens.length := by
        by_contra hc
        rw [List.getElem?_eq_none (by omega)] at hm
        cases hm
      refine ⟨m, hm, Or.inr (by omega), ?_⟩
      rcases h2 with ⟨rfl, h3, h4⟩ | ⟨-, h3, h4⟩ <;> omega

/-- A batch of two and a structure of size one, not extended: the single one is dropped from the first subplot as second of the list, drawn in both as first. -/
example : sceneItems false [2, 1] 0 = [(0, 0)] ∧ sceneItems false [1, 2] 1 = [(0, 0), (1, 1)] := by decide
/-- The third of three batches of size two disappears. -/
example : sceneItems false [2, 2, 2] 1 = [(0, 1), (1, 1)] := by decide

/-! ## Titles -/

theorem put_keys {α β : Type} [DecidableEq α] (d : List (α × β)) (k : α) (v : β) :
    (put d k v).map (·.1) = if k ∈ d.map (·.1) then d.map (·.1) else d.map (·.1) ++ [k] := by
  unfold put
  split_ifs with h
  · rw [List.map_map]
    apply List.map_congr_left
    intro e _
    simp only [Function.comp_apply]
    split_ifs with he
    · exact he.symm
    · rfl
  · simp

/-- The dictionary after the loop, seen as a map: the last subplot of each title. -/
theorem foldl_put {α β : Type} [DecidableEq α] (t : Nat → α) (v : Nat → β) (n : Nat) :
    ((List.range n).foldl (fun d s => put d (t s) (v s)) []).map (·.1) |>.Nodup := by
  induction n with
  | zero => simp
  | succ n ih =>
    rw [List.range_succ, List.foldl_append, List.foldl_cons, List.foldl_nil, put_keys]
    split_ifs with h
    · exact ih
    · rw [List.nodup_append]
      refine ⟨ih, by simp, ?_⟩
      intro a ha b hb hab
      rw [List.mem_singleton] at hb
      subst hab hb
      exact h ha

theorem foldl_put_mem {α β : Type} [DecidableEq α] (t : Nat → α) (v : Nat → β) (n : Nat) (k : α) (x : β) :
    (k, x) ∈ (List.range n).foldl (fun d s => put d (t s) (v s)) [] ↔ ∃ s < n, t s = k ∧ v s = x ∧ ∀ s', s < s' → s' < n → t s' ≠ k := by
  induction n with
  | zero => simp
  | succ n ih =>
    rw [List.range_succ, List.foldl_append, List.foldl_cons, List.foldl_nil]
    have hkeys : ∀ k', k' ∈ ((List.range n).foldl (fun d s => put d (t s) (v s)) []).map (·.1) ↔ ∃ s < n, t s = k' := by
      intro k'
      clear ih
      induction n with
      | zero => simp
      | succ n ih2 =>
        rw [List.range_succ, List.foldl_append, List.foldl_cons, List.foldl_nil, put_keys]
        constructor
        · intro h
          split_ifs at h with hc
          · obtain ⟨s, hs, h2⟩ := ih2.mp h
            exact ⟨s, by omega, h2⟩
          · rcases List.mem_append.mp h with h | h
            · obtain ⟨s, hs, h2⟩ := ih2.mp h
              exact ⟨s, by omega, h2⟩
            · exact ⟨n, by omega, (List.mem_singleton.mp h).symm⟩
        · rintro ⟨s, hs, rfl⟩
          rcases Nat.lt_succ_iff_lt_or_eq.mp hs with h | rfl
          · have := ih2.mpr ⟨s, h, rfl⟩
            split_ifs
            · exact this
            · exact List.mem_append_left _ this
          · split_ifs with hc
            · exact hc
            · simp
    unfold put
    by_cases hc : t n ∈ ((List.range n).foldl (fun d s => put d (t s) (v s)) []).map (·.1)
    · have hc' := hc
      unfold put at hc'
      rw [if_pos hc']
      constructor
      · intro h
        rw [List.mem_map] at h
        obtain ⟨e, he, h2⟩ := h
        by_cases hk : e.1 = t n
        · rw [if_pos hk] at h2
          cases h2
          exact ⟨n, by omega, rfl, rfl, fun s' h1 h2 => by omega⟩
        · rw [if_neg hk] at h2
          subst h2
          obtain ⟨s, hs, h3, h4, h5⟩ := ih.mp he
          refine ⟨s, by omega, h3, h4, fun s' h1 h6 => ?_⟩
          rcases Nat.lt_succ_iff_lt_or_eq.mp h6 with h7 | rfl
          · exact h5 s' h1 h7
          · exact fun hh => hk hh.symm
      · rintro ⟨s, hs, h3, h4, h5⟩
        rw [List.mem_map]
        rcases Nat.lt_succ_iff_lt_or_eq.mp hs with h | rfl
        · refine ⟨(k, x), ih.mpr ⟨s, h, h3, h4, fun s' h1 h2 => h5 s' h1 (by omega)⟩, ?_⟩
          rw [if_neg (fun hh => h5 n h (by omega) hh.symm)]
        · obtain ⟨e, he, h2⟩ := List.mem_map.mp hc
          refine ⟨e, he, ?_⟩
          rw [if_pos h2, h3, h4]
    · have hc' := hc
      unfold put at hc'
      rw [if_neg hc', List.mem_append, List.mem_singleton]
      constructor
      · rintro (h | h)
        · obtain ⟨s, hs, h3, h4, h5⟩ := ih.mp h
          refine ⟨s, by omega, h3, h4, fun s' h1 h6 => ?_⟩
          rcases Nat.lt_succ_iff_lt_or_eq.mp h6 with h7 | rfl
          · exact h5 s' h1 h7
          · intro hh
            exact hc ((hkeys _).mpr ⟨s, hs, h3.trans hh.symm⟩)
        · cases h
          exact ⟨n, by omega, rfl, rfl, fun s' h1 h2 => by omega⟩
      · rintro ⟨s, hs, h3, h4, h5⟩
        rcases Nat.lt_succ_iff_lt_or_eq.mp hs with h | rfl
        · exact Or.inl (ih.mpr ⟨s, h, h3, h4, fun s' h1 h2 => h5 s' h1 (by omega)⟩)
        · right
          rw [h3, h4]

/-- With different titles there is one subplot per batch element, in order; a repeated title leaves only the last batch element that has it. -/
theorem scenes_distinct {α : Type} [DecidableEq α] (extend : Bool) (lens : List Nat) (t : Nat → α) (n : Nat) (hd : ∀ i < n, ∀ j < n, t i = t j → i = j) :
    scenes extend lens t n = (List.range n).map (fun s => (t s, sceneItems extend lens s)) := by
  unfold scenes
  induction n with
  | zero => rfl
  | succ n ih =>
    rw [List.range_succ, List.foldl_append, List.foldl_cons, List.foldl_nil, ih (fun i hi j hj => hd i (by omega) j (by omega)), put, if_neg, List.map_append]
    · rfl
    · rw [List.map_map, List.mem_map]
      rintro ⟨s, hs, h⟩
      have := hd s (by have := List.mem_range.mp hs; omega) n (by omega) h
      have := List.mem_range.mp hs
      omega

theorem scenes_mem {α : Type} [DecidableEq α] (extend : Bool) (lens : List Nat) (t : Nat → α) (n : Nat) (k : α) (x : List Item) :
    (k, x) ∈ scenes extend lens t n ↔ ∃ s < n, t s = k ∧ sceneItems extend lens s = x ∧ ∀ s', s < s' → s' < n → t s' ≠ k :=
  foldl_put_mem t (sceneItems extend lens) n k x

theorem scenes_nodup {α : Type} [DecidableEq α] (extend : Bool) (lens : List Nat) (t : Nat → α) (n : Nat) : ((scenes extend lens t n).map (·.1)).Nodup :=
  foldl_put t (sceneItems extend lens) n

theorem getD_lt {α : Type} (l : List α) (d : α) (i : Nat) (h : i < l.length) : l.getD i d = l[i] := by simp [List.getD, h]

/-- The whole function on valid input with different titles: one subplot per batch element, in order, holding what is promised. -/
theorem plotBatch_ok {α : Type} [DecidableEq α] (numbered : Nat → α) (lens : List Nat) (titles : List α) (n : Nat) (h : maxSize lens = .ok (some n))
    (ht : titles.length = n) (hd : titles.Nodup) :
    ∃ d, plotBatch numbered true lens titles = .ok d ∧ d.map (·.1) = titles ∧
      ∀ (s : Nat) (e : α × List Item), d[s]? = some e → ∀ it, it ∈ e.2 ↔ promised true lens s it := by
  have hn := ((maxSize_ok lens n).mp h).1
  have hne : titles ≠ [] := by
    rintro rfl
    simp at ht
    omega
  have hscn : scenes true lens (fun s => if titles = [] then numbered s else titles.getD s (numbered s)) n =
      (List.range n).map (fun s => (titles.getD s (numbered s), sceneItems true lens s)) := by
    rw [scenes_distinct]
    · simp only [if_neg hne]
    · intro i hi j hj hij
      simp only [if_neg hne] at hij
      rw [getD_lt titles _ i (by omega), getD_lt titles _ j (by omega)] at hij
      exact (List.Nodup.getElem_inj_iff hd).mp hij
  refine ⟨(List.range n).map (fun s => (titles.getD s (numbered s), sceneItems true lens s)), ?_, ?_, ?_⟩
  · rw [← hscn]
    unfold plotBatch
    rw [h]
    dsimp only
    rw [if_neg]
    rintro ⟨-, h2⟩
    exact h2 ht
  · rw [List.map_map]
    apply List.ext_getElem
    · simp [ht]
    · intro i h1 h2
      simp only [List.getElem_map, List.getElem_range, Function.comp_apply]
      rw [getD_lt titles _ i h2]
  · intro s e he it
    rw [List.getElem?_map] at he
    by_cases hs : s < n
    · rw [List.getElem?_range hs, Option.map_some, Option.some.injEq] at he
      subst he
      exact extend_ok lens n s h hs it
    · rw [List.getElem?_eq_none (by simp; omega)] at he
      cases he

example : plotBatch (fun s => s) true [2, 1] [7, 8] = .ok [(7, [(0, 0), (1, 0)]), (8, [(0, 1), (1, 0)])] := by decide
example : plotBatch (fun s => s) true [2, 1] [7, 7] = .ok [(7, [(0, 1), (1, 0)])] := by decide
example : plotBatch (fun s => s) true [2, 1] [7] = .error .value := by decide

/-! ## Rays of a heterogeneous bundle -/

/-- `first_idxs`, `plotly_vis.py:518-522`: zero and the cumulative sums of the camera counts. -/
def firstIdx (counts : List Nat) (k : Nat) : Nat := (counts.take k).sum

/-- `getattr(batched_struct, attr)[first_idxs[k] : first_idxs[k + 1]]`, `plotly_vis.py:612-625`. -/
def camRays {α : Type} (counts : List Nat) (rays : List α) (k : Nat) : List α := (rays.take (firstIdx counts (k + 1))).drop (firstIdx counts k)

/-- The rays are stored camera after camera: camera `k` gets exactly its own. -/
theorem camRays_own {α : Type} (groups : List (List α)) (k : Nat) (g : List α) (h : groups[k]? = some g) :
    camRays (groups.map List.length) groups.flatten k = g := by
  induction groups generalizing k with
  | nil => simp at h
  | cons a l ih =>
    cases k with
    | zero =>
      simp only [List.getElem?_cons_zero, Option.some.injEq] at h
      subst h
      simp [camRays, firstIdx]
    | succ k =>
      simp only [List.getElem?_cons_succ] at h
      have := ih k h
      simp only [camRays, firstIdx, List.map_cons, List.take_succ_cons, List.sum_cons, List.flatten_cons] at this ⊢
      rw [List.take_length_add_append, List.drop_append, List.drop_eq_nil_of_le (by omega), Nat.add_sub_cancel_left]
      simpa using this

example : camRays [2, 0, 3] ["a", "b", "c", "d", "e"] 2 = ["c", "d", "e"] := by decide

/-! ## Place of a subplot -/

/-- `fig_rows`, `plotly_vis.py:976-978`. -/
def figRows (n ncols : Nat) : Except Err Nat :=
  if ncols = 0 then .error .zeroDiv else .ok (if n % ncols ≠ 0 then n / ncols + 1 else n / ncols)

/-- `row, col = subplot_idx // ncols + 1, subplot_idx % ncols + 1`. -/
def place (ncols i : Nat) : Nat × Nat := (i / ncols + 1, i % ncols + 1)

/-- Every subplot has its own place inside the grid, and the `scene` plotly numbers row by row is the one the axes are read from. -/
theorem place_ok (n ncols rows : Nat) (h : figRows n ncols = .ok rows) :
    (∀ i < n, 1 ≤ (place ncols i).1 ∧ (place ncols i).1 ≤ rows ∧ 1 ≤ (place ncols i).2 ∧ (place ncols i).2 ≤ ncols ∧ ((place ncols i).1 - 1) * ncols + (place ncols i).2 = i + 1) ∧
    (∀ i j, place ncols i = place ncols j → i = j) ∧ (∀ r, n ≤ r * ncols ↔ rows ≤ r) := by
  unfold figRows at h
  split_ifs at h with h0 h1
  all_goals
    have hpos : 0 < ncols := Nat.pos_of_ne_zero h0
    simp only [Except.ok.injEq] at h
    subst h
    have hdm := Nat.div_add_mod n ncols
    refine ⟨fun i hi => ?_, fun i j hij => ?_, fun r => ?_⟩
  · have hd := Nat.div_add_mod i ncols
    have hle : i / ncols ≤ n / ncols := Nat.div_le_div_right (by omega)
    have hlt := Nat.mod_lt i hpos
    simp only [place]
    refine ⟨Nat.le_add_left _ _, by omega, Nat.le_add_left _ _, by omega, ?_⟩
    rw [Nat.add_sub_cancel, Nat.mul_comm]
    omega
  · simp only [place, Prod.mk.injEq] at hij
    have e1 := Nat.div_add_mod i ncols
    have e2 := Nat.div_add_mod j ncols
    have : i / ncols = j / ncols := by omega
    rw [this] at e1
    omega
  · constructor
    · intro hr
      by_contra hc
      have : r ≤ n / ncols := by omega
      have : ncols * r ≤ ncols * (n / ncols) := Nat.mul_le_mul_left _ this
      rw [Nat.mul_comm] at hr
      omega
    · intro hr
      have : ncols * (n / ncols + 1) ≤ ncols * r := Nat.mul_le_mul_left _ hr
      have hlt := Nat.mod_lt n hpos
      rw [Nat.mul_add, Nat.mul_one] at this
      rw [Nat.mul_comm]
      omega
  · have hd := Nat.div_add_mod i ncols
    have hlt' : i / ncols < n / ncols := by
      rw [Nat.div_lt_iff_lt_mul hpos, Nat.mul_comm]
      omega
    have hlt := Nat.mod_lt i hpos
    simp only [place]
    refine ⟨Nat.le_add_left _ _, by omega, Nat.le_add_left _ _, by omega, ?_⟩
    rw [Nat.add_sub_cancel, Nat.mul_comm]
    omega
  · simp only [place, Prod.mk.injEq] at hij
    have e1 := Nat.div_add_mod i ncols
    have e2 := Nat.div_add_mod j ncols
    have : i / ncols = j / ncols := by omega
    rw [this] at e1
    omega
  · constructor
    · intro hr
      rw [Nat.div_le_iff_le_mul_add_pred hpos, Nat.mul_comm]
      omega
    · intro hr
      have : ncols * (n / ncols) ≤ ncols * r := Nat.mul_le_mul_left _ hr
      rw [Nat.mul_comm r]
      omega

example : figRows 5 2 = .ok 3 ∧ place 2 4 = (3, 1) := by decide

/-! ## Bounds of the axes -/

section Bounds
variable {K : Type} [Field K] [LinearOrder K] [IsStrictOrderedRing K]

/-- Mean of one coordinate. -/
def mean (l : List K) : K := l.sum / (l.length : K)
def lmax : List K → K
  | [] => 0
  | [x] => x
  | x :: l => max x (lmax l)
def lmin : List K → K
  | [] => 0
  | [x] => x
  | x :: l => min x (lmin l)

/-- The coordinates of a trace, axis by axis: `pts a` are those of axis `a` (`0`, `1`, `2`). -/
abbrev Pts (K : Type) := Nat → List K

/-- `max_expand = (verts.max(0)[0] - verts.min(0)[0]).max()`, `plotly_vis.py:704`, `958`. -/
def maxExpand (p : Pts K) : K := max (lmax (p 0) - lmin (p 0)) (max (lmax (p 1) - lmin (p 1)) (lmax (p 2) - lmin (p 2)))

/-- `_update_axes_bounds`, `plotly_vis.py:1008-1032`, for one axis: the centre minus and plus the spread, united with the old range. -/
def updRange (center e : K) (old : Option (K × K)) : K × K :=
  match old with
  | none => (center - e, center + e)
  | some r => (min (center - e) r.1, max (center + e) r.2)

/-- The ranges of a subplot after its traces. -/
def bounds (traces : List (Pts K)) (a : Nat) : Option (K × K) :=
  traces.foldl (fun r p => some (updRange (mean (p a)) (maxExpand p) r)) none

theorem lmin_le_lmax (l : List K) : (∀ x ∈ l, lmin l ≤ x ∧ x ≤ lmax l) := by
  induction l with
  | nil => simp
  | cons a l ih =>
    cases l with
    | nil => simp [lmin, lmax]
    | cons b l =>
      intro x hx
      rw [lmin, lmax]
      · rcases List.mem_cons.mp hx with rfl | hx
        · exact ⟨min_le_left _ _, le_max_left _ _⟩
        · have := ih x hx
          exact ⟨le_trans (min_le_right _ _) this.1, le_trans this.2 (le_max_right _ _)⟩
      · simp
      · simp

theorem sum_between (l : List K) (lo hi : K) (h : ∀ x ∈ l, lo ≤ x ∧ x ≤ hi) : (l.length : K) * lo ≤ l.sum ∧ l.sum ≤ (l.length : K) * hi := by
  induction l with
  | nil => simp
  | cons a l ih =>
    have h1 := h a (by simp)
    have h2 := ih (fun x hx => h x (by simp [hx]))
    simp only [List.length_cons, List.sum_cons]
    push_cast
    constructor <;> nlinarith [h1.1, h1.2, h2.1, h2.2]

theorem mean_between (l : List K) (hl : l ≠ []) (lo hi : K) (h : ∀ x ∈ l, lo ≤ x ∧ x ≤ hi) : lo ≤ mean l ∧ mean l ≤ hi := by
  have hp : (0 : K) < l.length := by
    have : 0 < l.length := List.length_pos_iff.mpr hl
    exact_mod_cast this
  have := sum_between l lo hi h
  unfold mean
  rw [le_div_iff₀ hp, div_le_iff₀ hp]
  constructor <;> nlinarith [this.1, this.2]

theorem spread_le (p : Pts K) (a : Nat) (ha : a < 3) : lmax (p a) - lmin (p a) ≤ maxExpand p := by
  unfold maxExpand
  have : a = 0 ∨ a = 1 ∨ a = 2 := by omega
  rcases this with rfl | rfl | rfl
  · exact le_max_left _ _
  · exact le_trans (le_max_left _ _) (le_max_right _ _)
  · exact le_trans (le_max_right _ _) (le_max_right _ _)

theorem upd_contains (p : Pts K) (a : Nat) (ha : a < 3) (old : Option (K × K)) (x : K) (hx : x ∈ p a) :
    (updRange (mean (p a)) (maxExpand p) old).1 ≤ x ∧ x ≤ (updRange (mean (p a)) (maxExpand p) old).2 := by
  have h1 := lmin_le_lmax (p a)
  have h2 := mean_between (p a) (List.ne_nil_of_mem hx) _ _ h1
  have h3 := spread_le p a ha
  have h4 := h1 x hx
  have lo : mean (p a) - maxExpand p ≤ x := by linarith [h2.1, h2.2, h4.1, h4.2]
  have hi : x ≤ mean (p a) + maxExpand p := by linarith [h2.1, h2.2, h4.1, h4.2]
  cases old with
  | none => exact ⟨lo, hi⟩
  | some r => exact ⟨le_trans (min_le_left _ _) lo, le_trans hi (le_max_left _ _)⟩

/-- The ranges of a subplot contain every point of every trace drawn in it. -/
theorem bounds_contain (traces : List (Pts K)) (a : Nat) (ha : a < 3) (r : K × K) (hr : bounds traces a = some r) :
    ∀ p ∈ traces, ∀ x ∈ p a, r.1 ≤ x ∧ x ≤ r.2 := by
  induction traces using List.reverseRecOn generalizing r with
  | nil => simp
  | append_singleton l q ih =>
    unfold bounds at hr ih
    rw [List.foldl_append, List.foldl_cons, List.foldl_nil, Option.some.injEq] at hr
    intro p hp x hx
    subst hr
    rcases List.mem_append.mp hp with hp | hp
    · cases hb : l.foldl (fun r p => some (updRange (mean (p a)) (maxExpand p) r)) (none : Option (K × K)) with
      | none =>
        exfalso
        have : l ≠ [] := List.ne_nil_of_mem hp
        obtain ⟨l', y, rfl⟩ := List.eq_nil_or_concat l |>.resolve_left this
        rw [List.concat_eq_append, List.foldl_append] at hb
        simp at hb
      | some r' =>
        have := ih r' hb p hp x hx
        exact ⟨le_trans (min_le_right _ _) this.1, le_trans this.2 (le_max_right _ _)⟩
    · rw [List.mem_singleton] at hp
      subst hp
      exact upd_contains p a ha _ x hx

/-- One trace: all three axes have the same length, twice the largest spread, around the centre. -/
theorem bounds_cube (p : Pts K) (a : Nat) : bounds [p] a = some (mean (p a) - maxExpand p, mean (p a) + maxExpand p) := rfl

/-- Adding a trace never shrinks a range. -/
theorem bounds_mono (traces : List (Pts K)) (q : Pts K) (a : Nat) (r r' : K × K) (hr : bounds traces a = some r) (hr' : bounds (traces ++ [q]) a = some r') :
    r'.1 ≤ r.1 ∧ r.2 ≤ r'.2 := by
  unfold bounds at hr hr'
  rw [List.foldl_append, List.foldl_cons, List.foldl_nil, hr, Option.some.injEq] at hr'
  subst hr'
  exact ⟨min_le_right _ _, le_max_right _ _⟩

/-- Two points one apart along `x` and one point two away: the ranges of the axes differ although the figure is drawn as a cube. -/
example : bounds [fun a => if a = 0 then [0, 1] else [0, 0], fun a => if a = 0 then [3] else [0]] 0 = some (-1 / 2, (3 : ℚ)) ∧
    bounds [fun a => if a = 0 then [0, 1] else [0, 0], fun a => if a = 0 then [3] else [0]] 1 = some (-1, (1 : ℚ)) := by
  constructor <;> norm_num [bounds, updRange, mean, maxExpand, lmax, lmin]

/-! ## The viewpoint -/

/-- `_scale_camera_to_bounds`, `plotly_vis.py:1055-1060`; the division by zero is a failure (an exception for numbers, infinities for tensors). -/
def scaleTo (x : K) (b : K × K) (isPos : Bool) : Except Err K :=
  let scale := (b.2 - b.1) / 2
  if scale = 0 then .error .zeroDiv
  else if isPos then .ok (x / scale - (b.2 / scale - 1)) else .ok (x / scale)

/-- Positions: the range is mapped to `[-1, 1]` in proportion; a range without length is an error. -/
theorem scale_pos (b : K × K) (x : K) (hb : b.1 < b.2) :
    ∃ y, scaleTo x b true = .ok y ∧ (y - -1) * (b.2 - b.1) = (1 - -1) * (x - b.1) := by
  have hs : (b.2 - b.1) / 2 ≠ 0 := by
    have : 0 < b.2 - b.1 := by linarith
    positivity
  refine ⟨x / ((b.2 - b.1) / 2) - (b.2 / ((b.2 - b.1) / 2) - 1), by simp [scaleTo, hs], ?_⟩
  have h2 : b.2 - b.1 ≠ 0 := ne_of_gt (sub_pos.mpr hb)
  field_simp
  ring

theorem scale_degenerate (b : K × K) (x : K) (p : Bool) : scaleTo x b p = .error .zeroDiv ↔ b.1 = b.2 := by
  unfold scaleTo
  dsimp only
  constructor
  · intro h
    split_ifs at h with h1
    have : b.2 - b.1 = 0 := by
      rcases div_eq_zero_iff.mp h1 with h | h
      · exact h
      · norm_num at h
    linarith
  · intro h
    rw [if_pos (by rw [h]; simp)]

/-- Directions are scaled like differences of positions. -/
theorem scale_dir (b : K × K) (x d y z w : K) (h1 : scaleTo x b true = .ok y) (h2 : scaleTo (x + d) b true = .ok z) (h3 : scaleTo d b false = .ok w) : w = z - y := by
  unfold scaleTo at h1 h2 h3
  dsimp only at h1 h2 h3
  split_ifs at h1 h2 h3 with h0
  all_goals simp_all
  subst h1 h2 h3
  ring

/-- Points that are drawn stay where they are relative to the eye: a drawn point is inside the cube. -/
theorem scale_inside (traces : List (Pts K)) (a : Nat) (ha : a < 3) (r : K × K) (hr : bounds traces a = some r) (hlt : r.1 < r.2) (p : Pts K) (hp : p ∈ traces) (x : K)
    (hx : x ∈ p a) : ∃ y, scaleTo x r true = .ok y ∧ -1 ≤ y ∧ y ≤ 1 := by
  obtain ⟨y, hy, he⟩ := scale_pos r x hlt
  have hc := bounds_contain traces a ha r hr p hp x hx
  have hpos : 0 < r.2 - r.1 := by linarith
  refine ⟨y, hy, ?_, ?_⟩
  · by_contra hcon
    have : (y - -1) * (r.2 - r.1) < 0 := mul_neg_of_neg_of_pos (by linarith) hpos
    linarith [hc.1]
  · by_contra hcon
    have : 2 * (r.2 - r.1) < (y - -1) * (r.2 - r.1) := mul_lt_mul_of_pos_right (by linarith) hpos
    linarith [hc.2]

example : scaleTo (5 : ℚ) (3, 7) true = .ok 0 ∧ scaleTo (3 : ℚ) (3, 7) true = .ok (-1) ∧ scaleTo (1 : ℚ) (3, 7) false = .ok (1 / 2) ∧ scaleTo (1 : ℚ) (3, 3) true = .error .zeroDiv := by
  refine ⟨?_, ?_, ?_, ?_⟩ <;> norm_num [scaleTo]

/-- `302-317`, `364-365`: the viewpoint of subplot `i`, if any. -/
def viewpoint (cams subplots i : Nat) : Option Nat := if cams = 0 then none else if cams = subplots ∨ cams = 1 then some (min (cams - 1) i) else none

theorem viewpoint_spec (cams subplots i : Nat) (hi : i < subplots) :
    viewpoint cams subplots i = (if cams = 1 then some 0 else if cams = subplots then some i else none) := by
  unfold viewpoint
  split_ifs <;> first | rfl | (simp; omega) | omega

example : viewpoint 3 3 2 = some 2 ∧ viewpoint 1 3 2 = some 0 ∧ viewpoint 2 3 0 = none := by decide

/-! ## Unused vertices -/

/-- `plotly_vis.py:673-678` for one coordinate: vertices of no face are moved to the mean of the others. -/
def moveUnused (used : List Bool) (v : List K) : List K :=
  let c := mean ((used.zip v).filterMap fun p => if p.1 then some p.2 else none)
  List.zipWith (fun u x => if u then x else c) used v

theorem moved_used (used : List Bool) (v : List K) (i : Nat) (x : K) (hu : used[i]? = some true) (hx : v[i]? = some x) : (moveUnused used v)[i]? = some x := by
  simp [moveUnused, List.getElem?_zipWith, hu, hx]

/-- Every plotted vertex lies between the extreme used vertices. -/
theorem moved_between (used : List Bool) (v : List K) (lo hi : K) (i0 : Nat) (x0 : K) (h0 : used[i0]? = some true) (h0' : v[i0]? = some x0)
    (h : ∀ (i : Nat) (x : K), used[i]? = some true → v[i]? = some x → lo ≤ x ∧ x ≤ hi) : ∀ y ∈ moveUnused used v, lo ≤ y ∧ y ≤ hi := by
  intro y hy
  obtain ⟨j, hj⟩ := List.getElem?_of_mem hy
  unfold moveUnused at hj
  rw [List.getElem?_zipWith] at hj
  cases hu : used[j]? with
  | none => simp [hu] at hj
  | some b =>
    cases hv : v[j]? with
    | none => simp [hu, hv] at hj
    | some x =>
      simp only [hu, hv, Option.some.injEq] at hj
      subst hj
      cases b with
      | true => exact h j x hu hv
      | false =>
        rw [if_neg (by simp)]
        apply mean_between
        · apply List.ne_nil_of_mem (a := x0)
          rw [List.mem_filterMap]
          refine ⟨(true, x0), List.mem_of_getElem? (i := i0) ?_, by simp⟩
          rw [List.getElem?_zip_eq_some]
          exact ⟨h0, h0'⟩
        · intro z hz
          rw [List.mem_filterMap] at hz
          obtain ⟨⟨b, z'⟩, hm, hz⟩ := hz
          obtain ⟨k, hk⟩ := List.getElem?_of_mem hm
          rw [List.getElem?_zip_eq_some] at hk
          cases b with
          | false => simp at hz
          | true =>
            simp only [if_true, Option.some.injEq] at hz
            subst hz
            exact h k z' hk.1 hk.2

example : moveUnused [true, false, true] [0, 9, (4 : ℚ)] = [0, 2, 4] := by
  norm_num [moveUnused, mean, List.filterMap_cons]

end Bounds

/-! ## Lines -/

/-- A row of a line plot: a point, a row of NaNs (the line is interrupted), or an uninitialised row. -/
inductive Row (α : Type)
  | pt (x : α)
  | nan
  | junk
  deriving DecidableEq, Repr

/-- `plotly_vis.py:799-807`: the points of all cameras with a row of NaNs between two cameras. -/
def wires {α : Type} : List (List α) → List (Row α)
  | [] => []
  | w :: ws => ws.foldl (fun acc v => acc ++ [.nan] ++ v.map .pt) (w.map .pt)

/-- `plotly_vis.py:894-901`: `torch.empty(1, 3)` followed by a row of NaNs and the two ends of every ray. -/
def rayLines {α : Type} (rays : List (α × α)) : List (Row α) := rays.foldl (fun acc r => acc ++ [.nan] ++ [.pt r.1, .pt r.2]) [.junk]

/-- The segments plotly draws: consecutive points. -/
def segments {α : Type} : List (Row α) → List (α × α)
  | .pt a :: .pt b :: l => (a, b) :: segments (.pt b :: l)
  | _ :: l => segments l
  | [] => []

/-- The segments of one polyline. -/
def path {α : Type} : List α → List (α × α)
  | a :: b :: l => (a, b) :: path (b :: l)
  | _ => []

theorem segments_pts {α : Type} (l : List α) : segments (l.map Row.pt) = path l := by
  induction l with
  | nil => rfl
  | cons a l ih =>
    cases l with
    | nil => rfl
    | cons b l =>
      simp only [List.map_cons] at ih ⊢
      rw [segments, path, ih]

theorem segments_split {α : Type} (l m : List (Row α)) : segments (l ++ [.nan] ++ m) = segments l ++ segments m := by
  induction l with
  | nil => rfl
  | cons a l ih =>
    cases a with
    | nan => simpa [segments] using ih
    | junk => simpa [segments] using ih
    | pt x =>
      cases l with
      | nil => simp [segments]
      | cons b l =>
        cases b with
        | nan => simpa [segments] using ih
        | junk => simpa [segments] using ih
        | pt y =>
          simp only [List.cons_append, segments] at ih ⊢
          rw [ih]

theorem wires_from {α : Type} (ws : List (List α)) (acc : List (Row α)) :
    segments (ws.foldl (fun acc v => acc ++ [.nan] ++ v.map .pt) acc) = segments acc ++ ws.flatMap path := by
  induction ws generalizing acc with
  | nil => simp
  | cons w ws ih => rw [List.foldl_cons, ih, segments_split, segments_pts, List.flatMap_cons, List.append_assoc]

/-- Exactly the wireframes of the cameras are drawn, no line connects two cameras. -/
theorem wires_segments {α : Type} (ws : List (List α)) : segments (wires ws) = ws.flatMap path := by
  cases ws with
  | nil => rfl
  | cons w ws => rw [wires, wires_from, segments_pts, List.flatMap_cons]

/-- Exactly one segment per ray is drawn, although the first row is uninitialised. -/
theorem rayLines_segments {α : Type} (rays : List (α × α)) : segments (rayLines rays) = rays := by
  have key : ∀ acc : List (Row α), segments (rays.foldl (fun acc r => acc ++ [.nan] ++ [.pt r.1, .pt r.2]) acc) = segments acc ++ rays := by
    induction rays with
    | nil => simp
    | cons r l ih =>
      intro acc
      rw [List.foldl_cons, ih, segments_split]
      simp [segments]
  unfold rayLines
  rw [key]
  rfl

/-- The uninitialised row is always part of the trace, as its first row. -/
theorem rayLines_junk {α : Type} (rays : List (α × α)) : (rayLines rays).head? = some .junk ∧ (rayLines rays).length = 1 + 3 * rays.length := by
  have key : ∀ acc : List (Row α), acc ≠ [] → (rays.foldl (fun acc r => acc ++ [.nan] ++ [.pt r.1, .pt r.2]) acc).head? = acc.head? ∧
      (rays.foldl (fun acc r => acc ++ [.nan] ++ [.pt r.1, .pt r.2]) acc).length = acc.length + 3 * rays.length := by
    induction rays with
    | nil => simp
    | cons r l ih =>
      intro acc h
      have := ih (acc ++ [.nan] ++ [.pt r.1, .pt r.2]) (by simp)
      rw [List.foldl_cons, this.1, this.2]
      constructor
      · cases acc with
        | nil => exact absurd rfl h
        | cons a acc => rfl
      · simp
        omega
  exact key [.junk] (by simp)

/-- `get_camera_wireframe`, `plotly_vis.py:72-82`: names of its points. -/
def frame : List String := ["a", "up1", "up2", "up1", "b", "d", "c", "a", "C", "b", "d", "C", "c", "C", "F"]

/-- Rows of the trace of `n` cameras: fifteen per camera and one between two. -/
theorem wires_length {α : Type} (ws : List (List α)) (k : Nat) (h : ∀ w ∈ ws, w.length = k) (hn : ws ≠ []) : (wires ws).length + 1 = (k + 1) * ws.length := by
  have key : ∀ (l : List (List α)) (acc : List (Row α)), (∀ w ∈ l, w.length = k) → (l.foldl (fun acc v => acc ++ [.nan] ++ v.map .pt) acc).length = acc.length + (k + 1) * l.length := by
    intro l
    induction l with
    | nil => simp
    | cons w l ih =>
      intro acc h
      rw [List.foldl_cons, ih _ (fun v hv => h v (by simp [hv]))]
      simp [h w (by simp)]
      ring
  cases ws with
  | nil => exact absurd rfl hn
  | cons w ws =>
    rw [wires, key ws _ (fun v hv => h v (by simp [hv]))]
    simp [h w (by simp)]
    ring

/-- The pyramid of the camera is complete: its four corners are joined to each other and each to the centre, which is joined to the point in front. -/
theorem frame_edges : frame.length = 15 ∧
    (∀ e ∈ [("b", "d"), ("d", "c"), ("c", "a"), ("a", "C"), ("C", "b"), ("d", "C"), ("C", "c"), ("C", "F"), ("a", "up1"), ("up1", "b")], e ∈ path frame) := by
  decide

example : segments (rayLines [((0 : Nat), 1), (2, 3)]) = [(0, 1), (2, 3)] := by decide
example : segments (wires [[(0 : Nat), 1, 2], [3, 4]]) = [(0, 1), (1, 2), (3, 4)] := by decide

/-! ## Subsampling the points of the rays -/

/-- `plotly_vis.py:917-930`: `perm r` is the random permutation drawn for ray `r`; what is kept of the flattened depths, cut into rows again. -/
def subPoints {α : Type} (n m : Nat) (perm : Nat → List Nat) (len : Nat → α) (r : Nat) (j : Nat) : Option α :=
  if n ≤ m then (if j < n then some (len (r * n + j)) else none)
  else if j < m then ((perm r)[j]?).map (fun i => len (i + r * n)) else none

/-- Each ray keeps the smaller number of points, all its own and different ones. -/
theorem subPoints_own (n m : Nat) (perm : Nat → List Nat) (hp : ∀ r, (perm r).Perm (List.range n)) (r : Nat) :
    (∀ j < min n m, ∃ i < n, subPoints n m perm id r j = some (r * n + i)) ∧ (∀ j, min n m ≤ j → subPoints n m perm id r j = none) ∧
    (∀ j j' i, subPoints n m perm id r j = some i → subPoints n m perm id r j' = some i → j = j') := by
  have hlen : (perm r).length = n := by simpa using (hp r).length_eq
  have hnd : (perm r).Nodup := (hp r).nodup_iff.mpr List.nodup_range
  unfold subPoints
  by_cases h : n ≤ m
  · simp only [if_pos h, id]
    refine ⟨fun j hj => ⟨j, by omega, by rw [if_pos (by omega)]⟩, fun j hj => by rw [if_neg (by omega)], fun j j' i h1 h2 => ?_⟩
    split_ifs at h1 h2
    simp only [Option.some.injEq] at h1 h2
    omega
  · simp only [if_neg h, id]
    refine ⟨fun j hj => ?_, fun j hj => by rw [if_neg (by omega)], fun j j' i h1 h2 => ?_⟩
    · have hj' : j < (perm r).length := by omega
      refine ⟨(perm r)[j], ?_, ?_⟩
      · have := (hp r).mem_iff.mp (List.getElem_mem hj')
        simpa using this
      · rw [if_pos (by omega), List.getElem?_eq_getElem hj', Option.map_some, Nat.add_comm]
    · split_ifs at h1 h2 with ha hb
      have hj : j < (perm r).length := by omega
      have hj' : j' < (perm r).length := by omega
      rw [List.getElem?_eq_getElem hj, Option.map_some, Option.some.injEq] at h1
      rw [List.getElem?_eq_getElem hj', Option.map_some, Option.some.injEq] at h2
      have : (perm r)[j] = (perm r)[j'] := by omega
      exact (List.Nodup.getElem_inj_iff hnd).mp this

example : subPoints 3 2 (fun _ => [2, 0, 1]) id 1 0 = some 5 ∧ subPoints 3 2 (fun _ => [2, 0, 1]) id 1 2 = none := by decide

end P3D.PlotlyVis
