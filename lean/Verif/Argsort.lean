/-
`torch.argsort(keys, stable=True)` and regrouping of packed tensors by mesh
(`ops/subdivide_meshes.py:336-409`).
-/
import Verif.EdgesProps
import Verif.Scatter
import Mathlib.Data.List.Range

set_option linter.unusedSectionVars false

namespace P3D.Argsort

open P3D.Meshes

/-- Positions ordered by key, equal keys by position. -/
def Before (keys : List Nat) (i j : Nat) : Prop :=
  keys.getD i 0 < keys.getD j 0 ∨ (keys.getD i 0 = keys.getD j 0 ∧ i ≤ j)

instance (keys : List Nat) : DecidableRel (Before keys) := fun i j => by unfold Before; infer_instance

/-- `torch.argsort(keys, stable=True)`: the positions, sorted by key; equal keys keep their order. -/
def stableArgsort (keys : List Nat) : List Nat := (List.range keys.length).insertionSort (Before keys)

theorem before_trans (keys : List Nat) {a b c : Nat} (h1 : Before keys a b) (h2 : Before keys b c) :
    Before keys a c := by
  unfold Before at *; omega

theorem before_total (keys : List Nat) (a b : Nat) : Before keys a b ∨ Before keys b a := by
  unfold Before; omega

theorem before_antisymm (keys : List Nat) {a b : Nat} (h1 : Before keys a b) (h2 : Before keys b a) : a = b := by
  unfold Before at *; omega

theorem stableArgsort_perm (keys : List Nat) : (stableArgsort keys).Perm (List.range keys.length) :=
  List.perm_insertionSort _ _

theorem stableArgsort_sorted (keys : List Nat) : (stableArgsort keys).Pairwise (Before keys) := by
  have ht : Std.Total (Before keys) := ⟨before_total keys⟩
  have htr : IsTrans Nat (Before keys) := ⟨fun a b c => before_trans keys⟩
  exact List.pairwise_insertionSort _ _

/-- The stable argsort is determined: any ordering of the positions by key that keeps equal keys in order. -/
theorem stableArgsort_unique (keys idx : List Nat) (hp : idx.Perm (List.range keys.length))
    (hs : idx.Pairwise (Before keys)) : idx = stableArgsort keys :=
  List.Perm.eq_of_pairwise (le := Before keys) (fun _ _ _ _ h1 h2 => before_antisymm keys h1 h2) hs
    (stableArgsort_sorted keys) (hp.trans (stableArgsort_perm keys).symm)

/-- Positions with a given key. -/
def posOf (keys : List Nat) (m : Nat) : List Nat := (List.range keys.length).filter (fun i => decide (keys.getD i 0 = m))

/-- With keys below `N` the stable argsort lists the positions of key 0, then those of key 1, ... -/
theorem stableArgsort_groups (keys : List Nat) (N : Nat) (h : ∀ k ∈ keys, k < N) :
    stableArgsort keys = (List.range N).flatMap (posOf keys) := by
  symm
  apply stableArgsort_unique
  · rw [List.perm_ext_iff_of_nodup _ List.nodup_range]
    · intro i
      simp only [List.mem_flatMap, List.mem_range, posOf, List.mem_filter, decide_eq_true_eq]
      constructor
      · rintro ⟨m, _, hi, _⟩; exact hi
      · intro hi
        refine ⟨_, h _ ?_, hi, rfl⟩
        rw [List.getD_eq_getElem?_getD, List.getElem?_eq_getElem hi]
        simp
    · rw [List.nodup_flatMap]
      refine ⟨fun m _ => List.nodup_range.filter _, ?_⟩
      apply List.Nodup.pairwise_of_forall_ne List.nodup_range
      intro a _ b _ hab i hia hib
      simp only [posOf, List.mem_filter, decide_eq_true_eq] at hia hib
      exact hab (hia.2.symm.trans hib.2)
  · rw [List.pairwise_flatMap]
    constructor
    · intro m _
      unfold posOf
      have : (List.range keys.length).Pairwise (· < ·) := List.pairwise_lt_range
      refine (this.filter _).imp_of_mem ?_
      intro a b ha hb hlt
      simp only [List.mem_filter, decide_eq_true_eq] at ha hb
      exact Or.inr ⟨by omega, by omega⟩
    · refine List.pairwise_lt_range.imp ?_
      intro a b hab i hi j hj
      simp only [posOf, List.mem_filter, decide_eq_true_eq] at hi hj
      exact Or.inl (by omega)

/-- The elements of `x` with key `m`, in order. -/
def sel {X : Type} (x : List X) (keys : List Nat) (m : Nat) : List X :=
  ((x.zip keys).filter (fun p => decide (p.2 = m))).map Prod.fst

theorem posOf_cons (k : Nat) (keys : List Nat) (m : Nat) :
    posOf (k :: keys) m = (if k = m then [0] else []) ++ (posOf keys m).map (· + 1) := by
  unfold posOf
  rw [List.length_cons, List.range_succ_eq_map, List.filter_cons, List.filter_map]
  by_cases h : k = m
  · simp [h]; rfl
  · simp [h]; rfl

theorem posOf_gather {X : Type} (x : List X) (keys : List Nat) (m : Nat) (h : x.length = keys.length) :
    (posOf keys m).map (fun i => x[i]?) = (sel x keys m).map some := by
  induction keys generalizing x with
  | nil => simp [posOf, sel]
  | cons k keys ih =>
    cases x with
    | nil => simp at h
    | cons a x =>
      have := ih x (by simpa using h)
      rw [posOf_cons, List.map_append, List.map_map]
      have e : ((fun i => (a :: x)[i]?) ∘ (· + 1)) = fun i => x[i]? := by funext i; simp
      rw [e, this]
      unfold sel
      by_cases hk : k = m <;> simp [hk]

/-- Gathering by the stable argsort groups the elements by key. -/
theorem gather_groups {X : Type} (x : List X) (keys : List Nat) (N : Nat) (hk : ∀ k ∈ keys, k < N)
    (h : x.length = keys.length) :
    (stableArgsort keys).map (fun i => x[i]?) = ((List.range N).flatMap (sel x keys)).map some := by
  rw [stableArgsort_groups keys N hk, List.map_flatMap, List.map_flatMap]
  congr 1
  funext m
  exact posOf_gather x keys m h

theorem sel_append {X : Type} (x y : List X) (k l : List Nat) (m : Nat) (h : x.length = k.length) :
    sel (x ++ y) (k ++ l) m = sel x k m ++ sel y l m := by
  unfold sel
  rw [List.zip_append h, List.filter_append, List.map_append]

theorem sel_const {X : Type} (x : List X) (n m : Nat) :
    sel x (List.replicate x.length n) m = if n = m then x else [] := by
  induction x with
  | nil => simp [sel]
  | cons a x ih =>
    unfold sel at ih ⊢
    by_cases h : n = m
    · simp [h, List.replicate_succ] at ih ⊢
      exact ih
    · simp [h, List.replicate_succ] at ih ⊢
      exact ih

theorem sel_blocks_aux {X : Type} (A : List (List X)) (j m : Nat) :
    sel A.flatten ((((A.map List.length).zipIdx j).map fun p => List.replicate p.1 p.2).flatten) m
      = if j ≤ m then A.getD (m - j) [] else [] := by
  induction A generalizing j with
  | nil => simp [sel]
  | cons a A ih =>
    simp only [List.flatten_cons, List.map_cons, List.zipIdx_cons]
    rw [sel_append _ _ _ _ _ (by simp), sel_const, ih (j + 1)]
    by_cases h : j = m
    · subst h; simp
    · rw [if_neg h]
      by_cases h2 : j ≤ m
      · rw [if_pos (by omega), if_pos h2]
        have : m - j = (m - (j + 1)) + 1 := by omega
        rw [this]; simp
      · rw [if_neg (by omega), if_neg h2]; rfl

/-- Selecting mesh `m` from a packed tensor gives the block of mesh `m`. -/
theorem sel_blocks {X : Type} (A : List (List X)) (m : Nat) :
    sel A.flatten (Abs.meshIdx (A.map List.length)) m = A.getD m [] := by
  have := sel_blocks_aux A 0 m
  simpa [Abs.meshIdx] using this

theorem mem_meshIdx_lt {l : List Nat} {i : Nat} (h : i ∈ Abs.meshIdx l) : i < l.length := mem_meshIdx h

theorem flatMap_range_getD {X : Type} (A : List (List X)) : (List.range A.length).flatMap (fun m => A.getD m []) = A.flatten := by
  induction A with
  | nil => rfl
  | cons a A ih =>
    rw [List.length_cons, List.range_succ_eq_map, List.flatMap_cons, List.flatMap_map]
    simp [← ih]

/-- Interleaving two packed tensors: regrouping `cat(A, B)` by mesh puts, for each mesh, its `A` block before its
`B` block. -/
theorem regroup2 {X : Type} (A B : List (List X)) (h : A.length = B.length) :
    (stableArgsort (Abs.meshIdx (A.map List.length) ++ Abs.meshIdx (B.map List.length))).map
        (fun i => (A.flatten ++ B.flatten)[i]?)
      = ((List.zipWith (· ++ ·) A B).flatten).map some := by
  have hA : A.flatten.length = (Abs.meshIdx (A.map List.length)).length := by
    rw [length_meshIdx, List.length_flatten]
  have hB : B.flatten.length = (Abs.meshIdx (B.map List.length)).length := by
    rw [length_meshIdx, List.length_flatten]
  rw [gather_groups _ _ A.length]
  · congr 1
    rw [← flatMap_range_getD (List.zipWith (· ++ ·) A B)]
    have : (List.zipWith (· ++ ·) A B).length = A.length := by simp [h]
    rw [this]
    apply P3D.Scatter.flatMap_congr'
    intro m hm
    rw [List.mem_range] at hm
    rw [sel_append _ _ _ _ _ hA, sel_blocks, sel_blocks]
    simp [List.getD_eq_getElem?_getD, hm, h ▸ hm]
  · intro k hk
    rw [List.mem_append] at hk
    rcases hk with hk | hk
    · simpa using mem_meshIdx hk
    · simpa [h] using mem_meshIdx hk
  · simp only [List.length_append, hA, hB]

/-- Four copies of the same block structure. -/
theorem regroup4 {X : Type} (A B C D : List (List X)) (hB : B.map List.length = A.map List.length)
    (hC : C.map List.length = A.map List.length) (hD : D.map List.length = A.map List.length) :
    (stableArgsort ((List.replicate 4 (Abs.meshIdx (A.map List.length))).flatten)).map
        (fun i => (A.flatten ++ B.flatten ++ C.flatten ++ D.flatten)[i]?)
      = ((List.range A.length).flatMap fun m => A.getD m [] ++ B.getD m [] ++ C.getD m [] ++ D.getD m []).map some := by
  have hl : ∀ {Y : List (List X)}, Y.map List.length = A.map List.length →
      Y.flatten.length = (Abs.meshIdx (A.map List.length)).length := by
    intro Y hY
    rw [length_meshIdx, List.length_flatten, hY]
  have e : (List.replicate 4 (Abs.meshIdx (A.map List.length))).flatten
      = Abs.meshIdx (A.map List.length) ++ Abs.meshIdx (A.map List.length) ++ Abs.meshIdx (A.map List.length)
        ++ Abs.meshIdx (A.map List.length) := by
    simp [List.replicate_succ]
  rw [e, gather_groups _ _ A.length]
  · congr 1
    apply P3D.Scatter.flatMap_congr'
    intro m hm
    rw [sel_append _ _ _ _ _ (by simp [hl hB, hl hC, hl rfl]), sel_append _ _ _ _ _ (by simp [hl hB, hl rfl]),
      sel_append _ _ _ _ _ (hl rfl), sel_blocks]
    conv_lhs => arg 1; arg 1; arg 2; rw [← hB, sel_blocks]
    conv_lhs => arg 1; arg 2; rw [← hC, sel_blocks]
    conv_lhs => arg 2; rw [← hD, sel_blocks]
  · intro k hk
    simp only [List.mem_append] at hk
    rcases hk with ((hk | hk) | hk) | hk <;> simpa using mem_meshIdx hk
  · simp only [List.length_append, hl hB, hl hC, hl hD, hl rfl]

/-- Inverting a permutation by `zeros.scatter_add(0, perm, arange)` (`subdivide_meshes.py:266-278`). -/
def scatterInverse (perm : List Nat) : List Nat :=
  (List.range perm.length).map (P3D.Scatter.scatterAdd (perm.zip (List.range perm.length)))

theorem scatterInverse_get (perm : List Nat) (hp : perm.Perm (List.range perm.length)) (p i : Nat)
    (h : perm[p]? = some i) : (scatterInverse perm)[i]? = some p := by
  have hpl : p < perm.length := (List.getElem?_eq_some_iff.mp h).1
  have hi : i < perm.length := by
    have := hp.mem_iff.mp (List.mem_of_getElem? h)
    simpa using this
  have hnd : perm.Nodup := hp.nodup_iff.mpr List.nodup_range
  unfold scatterInverse
  rw [List.getElem?_map, List.getElem?_range hi]
  simp only [Option.map_some, Option.some.injEq]
  rw [P3D.Scatter.scatterAdd_apply]
  have hz : perm.zip (List.range perm.length) = perm.zipIdx := by
    rw [List.zipIdx_eq_zip_range', List.range_eq_range']
  rw [hz]
  have hf : (perm.zipIdx.filter fun c => decide (c.1 = i)) = [(i, p)] := by
    have hperm : (perm.zipIdx.filter fun c => decide (c.1 = i)).Perm [(i, p)] := by
      rw [List.perm_ext_iff_of_nodup]
      · rintro ⟨a, b⟩
        simp only [List.mem_filter, List.mem_zipIdx_iff_getElem?, decide_eq_true_eq, List.mem_singleton, Prod.mk.injEq]
        constructor
        · rintro ⟨hab, rfl⟩
          refine ⟨rfl, ?_⟩
          obtain ⟨hb, hb'⟩ := List.getElem?_eq_some_iff.mp hab
          obtain ⟨hc, hc'⟩ := List.getElem?_eq_some_iff.mp h
          exact (List.Nodup.getElem_inj_iff hnd).mp (hb'.trans hc'.symm)
        · rintro ⟨rfl, rfl⟩; exact ⟨h, rfl⟩
      · apply List.Nodup.filter
        have : (perm.zipIdx.map Prod.snd).Nodup := by
          rw [List.zipIdx_map_snd]; exact List.nodup_range'
        exact List.Nodup.of_map _ this
      · simp
    exact List.perm_singleton.mp hperm
  rw [hf]; simp

example : stableArgsort [0, 0, 1, 2, 0, 1, 1] = [0, 1, 4, 2, 5, 6, 3] := by decide +kernel
example : scatterInverse [0, 1, 4, 2, 5, 6, 3] = [0, 1, 3, 6, 2, 4, 5] := by decide +kernel
/-- An unstable order is not the stable argsort. -/
example : [4, 1, 0, 2, 5, 6, 3] ≠ stableArgsort [0, 0, 1, 2, 0, 1, 1] := by decide +kernel

end P3D.Argsort
