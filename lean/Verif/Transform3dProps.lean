/-
C24: composition, inversion, stacking and indexing of `Transform3d`; C25: normals.
-/
import Verif.Transform3d
import Mathlib.Tactic.FinCases
import Mathlib.Tactic.FieldSimp
import Mathlib.Tactic.Linarith

set_option linter.unusedSectionVars false

namespace P3D.T3d

/-! ### Broadcasting -/

theorem blen_comm (n m : Nat) : blen n m = blen m n := by
  unfold blen
  by_cases h1 : n = m
  · rw [h1]
  · have h2 : ¬ m = n := fun h => h1 h.symm
    by_cases h3 : n = 1 <;> by_cases h4 : m = 1 <;> simp [h1, h2, h3, h4]; omega

theorem blen_assoc (a b c : Nat) : (blen a b).bind (blen · c) = (blen b c).bind (blen a ·) := by
  unfold blen
  by_cases h1 : a = b <;> by_cases h2 : b = c <;> by_cases h3 : a = 1 <;> by_cases h4 : b = 1 <;>
    by_cases h5 : c = 1 <;> by_cases h6 : a = c <;> simp_all

theorem blen_one_left (n : Nat) : blen 1 n = some n := by
  unfold blen; split_ifs with h <;> simp_all

theorem blen_one_right (n : Nat) : blen n 1 = some n := by rw [blen_comm, blen_one_left]

theorem pick_one {α : Type*} (d : α) (a : List α) (h : a.length = 1) (i j : Nat) : pick d a i = pick d a j := by
  unfold pick; rw [if_pos h, if_pos h]

theorem pick_map {α β : Type*} (d : α) (f : α → β) (a : List α) (i : Nat) :
    pick (f d) (a.map f) i = f (pick d a i) := by
  unfold pick
  simp only [List.length_map, List.getD_eq_getElem?_getD, List.getElem?_map]
  cases a[if a.length = 1 then 0 else i]? <;> rfl

theorem pick_mem {α : Type*} (d : α) (a : List α) (i : Nat) : pick d a i ∈ a ∨ pick d a i = d := by
  unfold pick
  rw [List.getD_eq_getElem?_getD]
  rcases h : a[if a.length = 1 then 0 else i]? with _ | x
  · exact Or.inr rfl
  · exact Or.inl (List.mem_of_getElem? h)

theorem range_pick {α : Type*} (d : α) (a : List α) : (List.range a.length).map (pick d a) = a := by
  apply List.ext_getElem
  · simp
  · intro i h1 h2
    simp only [List.getElem_map, List.getElem_range]
    unfold pick
    split_ifs with h
    · have : i = 0 := by omega
      subst this
      simp [List.getD_eq_getElem?_getD, h2]
    · simp [List.getD_eq_getElem?_getD, h2]

variable {α β γ δ ε ζ : Type*}

theorem bcast_eq_some {da : α} {db : β} {f : α → β → γ} {a : List α} {b : List β} {r : List γ} :
    bcast da db f a b = some r ↔ ∃ n, blen a.length b.length = some n ∧
      r = (List.range n).map fun i => f (pick da a i) (pick db b i) := by
  unfold bcast
  rw [Option.map_eq_some_iff]
  constructor
  · rintro ⟨n, h1, rfl⟩; exact ⟨n, h1, rfl⟩
  · rintro ⟨n, h1, rfl⟩; exact ⟨n, h1, rfl⟩

/-- Element of a broadcast result that is itself broadcast to a longer batch. -/
theorem pick_bcast {da : α} {db : β} {f : α → β → γ} (dr : γ) {a : List α} {b : List β} {n N i : Nat}
    (hn : blen a.length b.length = some n) (hN : n = 1 ∨ n = N) (hi : i < N) :
    pick dr ((List.range n).map fun i => f (pick da a i) (pick db b i)) i = f (pick da a i) (pick db b i) := by
  unfold pick
  simp only [List.length_map, List.length_range]
  by_cases h1 : n = 1
  · subst h1
    have : a.length = 1 ∧ b.length = 1 := by
      unfold blen at hn
      split_ifs at hn with h1 h2 h3 <;> simp at hn <;> omega
    simp [List.getD_eq_getElem?_getD, this]
  · have hnN : n = N := by omega
    rw [if_neg h1, List.getD_eq_getElem?_getD, List.getElem?_map, List.getElem?_range (by omega)]
    rfl

theorem blen_cases {n m l : Nat} (h : blen n m = some l) : (n = 1 ∨ n = l) ∧ (m = 1 ∨ m = l) := by
  unfold blen at h
  split_ifs at h <;> simp at h <;> omega

/-- Broadcasting is associative. -/
theorem bcast_assoc {da : α} {db : β} {dc : γ} (f : α → β → δ) (k : β → γ → ε) (g : δ → γ → ζ) (h : α → ε → ζ)
    (dr : δ) (ds : ε) (a : List α) (b : List β) (c : List γ)
    (hyp : ∀ i, g (f (pick da a i) (pick db b i)) (pick dc c i)
      = h (pick da a i) (k (pick db b i) (pick dc c i))) :
    ((bcast da db f a b).bind fun r => bcast dr dc g r c)
      = (bcast db dc k b c).bind fun s => bcast da ds h a s := by
  have hl := blen_assoc a.length b.length c.length
  rcases h1 : blen a.length b.length with _ | n
  · rw [h1] at hl
    simp only [Option.bind_none] at hl
    unfold bcast
    rw [h1]
    rcases h2 : blen b.length c.length with _ | m
    · rfl
    · rw [h2] at hl
      simp only [Option.bind_some] at hl
      simp [← hl]
  · rw [h1] at hl
    simp only [Option.bind_some] at hl
    rcases h2 : blen b.length c.length with _ | m
    · rw [h2] at hl
      simp only [Option.bind_none] at hl
      unfold bcast
      rw [h1, h2]
      simp [hl]
    · rw [h2] at hl
      simp only [Option.bind_some] at hl
      unfold bcast
      rw [h1, h2]
      simp only [Option.map_some, Option.bind_some, List.length_map, List.length_range]
      rw [← hl]
      rcases h3 : blen n c.length with _ | N
      · rfl
      · rw [h3] at hl
        simp only [Option.map_some]
        congr 1
        apply List.map_congr_left
        intro i hi
        rw [List.mem_range] at hi
        rw [pick_bcast dr h1 (blen_cases h3).1 hi, pick_bcast ds h2 (blen_cases hl.symm).2 hi]
        exact hyp i

/-! ### Matrices of objects as a monoid -/

variable {K : Type*} [Field K]

/-- Batches of matrices, or the ValueError. -/
abbrev B (K : Type*) := Option (List (M4 K))

instance : Mul (B K) := ⟨fun x y => Option.bind x fun a => Option.bind y fun b => bmm a b⟩
instance : One (B K) := ⟨some [1]⟩

theorem B.mul_def (x y : B K) : x * y = Option.bind x fun a => Option.bind y fun b => bmm a b := rfl

theorem bmm_one_left (a : List (M4 K)) : bmm [1] a = some a := by
  unfold bmm bcast
  rw [show [(1 : M4 K)].length = 1 from rfl, blen_one_left, Option.map_some]
  congr 1
  have : ∀ i, pick (1 : M4 K) [1] i = 1 := by intro i; unfold pick; simp
  simp only [this, one_mul]
  exact range_pick 1 a

theorem bmm_one_right (a : List (M4 K)) : bmm a [1] = some a := by
  unfold bmm bcast
  rw [show [(1 : M4 K)].length = 1 from rfl, blen_one_right, Option.map_some]
  congr 1
  have : ∀ i, pick (1 : M4 K) [1] i = 1 := by intro i; unfold pick; simp
  simp only [this, mul_one]
  exact range_pick 1 a

instance : Monoid (B K) where
  mul_assoc x y z := by
    rcases x with _ | a
    · rfl
    rcases y with _ | b
    · rfl
    rcases z with _ | c
    · simp only [B.mul_def]
      rcases Option.bind (some a) fun a => Option.bind (some b) fun b => bmm a b with _ | r <;> rfl
    · simp only [B.mul_def, Option.bind_some]
      exact bcast_assoc (da := 1) (db := 1) (dc := 1) _ _ _ _ 1 1 a b c
        fun i => _root_.mul_assoc (pick (1 : M4 K) a i) (pick 1 b i) (pick 1 c i)
  one_mul x := by
    rcases x with _ | a
    · rfl
    · exact bmm_one_left a
  mul_one x := by
    rcases x with _ | a
    · rfl
    · exact bmm_one_right a

/-- The matrix of an object. -/
def matB (t : T3 K) : B K := getMatrix t

theorem composeAll_eq (ts : List (T3 K)) (acc : List (M4 K)) :
    (composeAll acc ts : B K) = (some acc : B K) * (ts.map matB).prod := by
  induction ts generalizing acc with
  | nil =>
    rw [composeAll, List.map_nil, List.prod_nil, mul_one]
  | cons t ts ih =>
    rw [composeAll, List.map_cons, List.prod_cons, ← mul_assoc]
    show Option.bind (getMatrix t) _ = _
    rcases h : getMatrix t with _ | o
    · have : matB t = (none : Option (List (M4 K))) := h
      rw [this]; rfl
    · have : matB t = (some o : Option (List (M4 K))) := h
      rw [this]
      simp only [Option.bind_some]
      rcases hb : bmm acc o with _ | r
      · have : (some acc : B K) * (some o : Option (List (M4 K))) = (none : Option (List (M4 K))) := hb
        rw [this]; rfl
      · have : (some acc : B K) * (some o : Option (List (M4 K))) = (some r : Option (List (M4 K))) := hb
        rw [this]
        exact ih r

theorem matB_mk (k : Kind) (d : DType) (m : List (M4 K)) (ts : List (T3 K)) :
    matB (.mk k d m ts) = (some m : B K) * (ts.map matB).prod := by
  unfold matB
  rw [getMatrix]
  exact composeAll_eq ts m

/-- **C24 (composition).** The matrix of `t.compose(t1, …, tn)` is the broadcast product, in this order,
of the matrices of `t, t1, …, tn`, whatever trees of composed transforms these are; it fails exactly when
the batch sizes do not broadcast. -/
theorem matB_compose (t : T3 K) (others : List (T3 K)) :
    matB (compose t others) = matB t * (others.map matB).prod := by
  obtain ⟨k, d, m, ts⟩ := t
  rw [compose, matB_mk, matB_mk, List.map_append, List.prod_append, mul_assoc]

/-- **C24.** Composing is associative, so grouping does not matter. -/
theorem matB_compose_compose (t : T3 K) (a b : List (T3 K)) :
    matB (compose (compose t a) b) = matB (compose t (a ++ b)) := by
  rw [matB_compose, matB_compose, matB_compose, List.map_append, List.prod_append, mul_assoc]

/-- Nested composition is the same as flat composition. -/
theorem matB_compose_nested (t s : T3 K) (a : List (T3 K)) :
    matB (compose t [compose s a]) = matB (compose t (s :: a)) := by
  rw [matB_compose, matB_compose, List.map_cons, List.map_nil, List.prod_cons, List.prod_nil, mul_one,
    matB_compose, List.map_cons, List.prod_cons]

/-! ### Inverse -/

noncomputable def B.inv (x : B K) : B K := Option.map (List.map (·⁻¹)) x

theorem B.inv_mul (x y : B K) : B.inv (x * y) = B.inv y * B.inv x := by
  rcases x with _ | a
  · rcases y with _ | b <;> rfl
  rcases y with _ | b
  · rfl
  show Option.map _ (bmm a b) = bmm (b.map (·⁻¹)) (a.map (·⁻¹))
  unfold bmm bcast
  rw [List.length_map, List.length_map, blen_comm b.length, Option.map_map]
  congr 1
  funext n
  simp only [Function.comp_apply, List.map_map]
  apply List.map_congr_left
  intro i _
  have h : ∀ l : List (M4 K), pick (1 : M4 K) (l.map (·⁻¹)) i = (pick 1 l i)⁻¹ := by
    intro l
    have := pick_map (1 : M4 K) (·⁻¹) l i
    rwa [show ((1 : M4 K))⁻¹ = 1 from inv_one] at this
  rw [h, h]
  exact Matrix.mul_inv_rev _ _

theorem B.inv_prod (l : List (B K)) : B.inv l.prod = (l.map B.inv).reverse.prod := by
  induction l with
  | nil =>
    show Option.map (List.map (·⁻¹)) (some [(1 : M4 K)]) = some [1]
    simp
  | cons x l ih =>
    rw [List.prod_cons, B.inv_mul, ih, List.map_cons, List.reverse_cons, List.prod_append]
    simp

/-- What the constructors guarantee: the matrices of each class have the right form and are invertible. -/
def KindOk : Kind → M4 K → Prop
  | .base, m => m.det ≠ 0
  | .translate, m => ∃ v, m = translateMat v
  | .scale, m => ∃ v : V3 K, v.x ≠ 0 ∧ v.y ≠ 0 ∧ v.z ≠ 0 ∧ m = scaleMat v
  | .rotate, m => ∃ r : M3 K, r * r.transpose = 1 ∧ m = rotateMat r
  | .rotateAxisAngle, m => ∃ r : M3 K, r * r.transpose = 1 ∧ m = rotateMat r

mutual
def Ok : T3 K → Prop
  | .mk k _ m ts => (∀ x ∈ m, KindOk k x) ∧ Oks ts
def Oks : List (T3 K) → Prop
  | [] => True
  | t :: ts => Ok t ∧ Oks ts
end

theorem affine_mul (A A' : M3 K) (t t' : V3 K) :
    M4.affine A t * M4.affine A' t' = M4.affine (A * A') (M3.vecMul t A' + t') := by
  ext i j
  fin_cases i <;> fin_cases j <;>
    simp [M4.affine, Matrix.mul_apply, Fin.sum_univ_four, M3.mul_def, M3.vecMul]

theorem affine_one : M4.affine (1 : M3 K) 0 = 1 := by
  ext i j
  fin_cases i <;> fin_cases j <;> simp [M4.affine]

theorem inv_eq {m n : M4 K} (h : m * n = 1) : m⁻¹ = n := Matrix.inv_eq_right_inv h

theorem inverseMat_ok {k : Kind} {m : M4 K} (h : KindOk k m) :
    inverseMat k m = .ok m⁻¹ ∧ m * m⁻¹ = 1 := by
  cases k with
  | base =>
    refine ⟨if_neg h, Matrix.mul_nonsing_inv _ (isUnit_iff_ne_zero.mpr h)⟩
  | translate =>
    obtain ⟨v, rfl⟩ := h
    have h1 : translateMat v * translateMat (-v) = 1 := by
      unfold translateMat
      rw [affine_mul, one_mul, ← affine_one]
      congr 1
      ext <;> simp [M3.vecMul]
    rw [inv_eq h1]
    refine ⟨?_, h1⟩
    show Except.ok _ = Except.ok _
    congr 1
    ext i j
    fin_cases i <;> fin_cases j <;> simp [translateMat, M4.affine]
  | scale =>
    obtain ⟨v, hx, hy, hz, rfl⟩ := h
    have h1 : scaleMat v * scaleMat ⟨v.x⁻¹, v.y⁻¹, v.z⁻¹⟩ = 1 := by
      unfold scaleMat
      rw [affine_mul, ← affine_one]
      congr 1
      · ext <;> simp [M3.mul_def, hx, hy, hz]
      · ext <;> simp [M3.vecMul]
    rw [inv_eq h1]
    refine ⟨?_, h1⟩
    show Except.ok _ = Except.ok _
    congr 1
    ext i j
    fin_cases i <;> fin_cases j <;> simp [scaleMat, M4.affine, Matrix.diagonal]
  | rotate =>
    obtain ⟨r, hr, rfl⟩ := h
    have h1 : rotateMat r * rotateMat r.transpose = 1 := by
      unfold rotateMat
      rw [affine_mul, hr, ← affine_one]
      congr 1
      ext <;> simp [M3.vecMul]
    rw [inv_eq h1]
    refine ⟨?_, h1⟩
    show Except.ok _ = Except.ok _
    congr 1
    ext i j
    fin_cases i <;> fin_cases j <;> simp [rotateMat, M4.affine, M3.transpose]
  | rotateAxisAngle =>
    obtain ⟨r, hr, rfl⟩ := h
    have h1 : rotateMat r * rotateMat r.transpose = 1 := by
      unfold rotateMat
      rw [affine_mul, hr, ← affine_one]
      congr 1
      ext <;> simp [M3.vecMul]
    rw [inv_eq h1]
    refine ⟨?_, h1⟩
    show Except.ok _ = Except.ok _
    congr 1
    ext i j
    fin_cases i <;> fin_cases j <;> simp [rotateMat, M4.affine, M3.transpose]

theorem mapM_inverseMat {k : Kind} : ∀ {m : List (M4 K)}, (∀ x ∈ m, KindOk k x) →
    m.mapM (inverseMat k) = .ok (m.map (·⁻¹))
  | [], _ => rfl
  | x :: m, h => by
    rw [List.mapM_cons, (inverseMat_ok (h x (by simp))).1,
      mapM_inverseMat (fun y hy => h y (List.mem_cons_of_mem _ hy))]
    rfl

mutual
/-- **C24 (inverse).** For objects whose matrices are as the constructors make them (and invertible),
`inverse()` succeeds and its matrix is the matrix inverse of the composed matrix. -/
theorem inverse_spec : ∀ (t : T3 K), Ok t → ∃ it, inverse t = .ok it ∧ matB it = B.inv (matB t)
  | .mk k d m ts, h => by
    rw [Ok] at h
    obtain ⟨its, h1, h2⟩ := inverses_spec ts h.2
    rw [inverse, mapM_inverseMat h.1, h1]
    rcases hts : ts with _ | ⟨t0, ts'⟩
    · refine ⟨.mk .base d (m.map (·⁻¹)) [], rfl, ?_⟩
      rw [matB_mk, matB_mk]
      simp only [List.map_nil, List.prod_nil, mul_one]
      rfl
    · refine ⟨.mk .base d [1] (its.reverse ++ [.mk .base d (m.map (·⁻¹)) []]), rfl, ?_⟩
      rw [← hts, matB_mk, matB_mk, B.inv_mul, B.inv_prod, List.map_append, List.prod_append, List.map_reverse,
        h2]
      have e1 : (some [1] : B K) = 1 := rfl
      rw [e1, one_mul]
      congr 1
      simp only [List.map_cons, List.map_nil, List.prod_cons, List.prod_nil, mul_one, matB_mk]
      rfl
theorem inverses_spec : ∀ (ts : List (T3 K)), Oks ts →
    ∃ its, inverses ts = .ok its ∧ its.map matB = (ts.map matB).map B.inv
  | [], _ => ⟨[], by rw [inverses], rfl⟩
  | t :: ts, h => by
    rw [Oks] at h
    obtain ⟨it, h1, h2⟩ := inverse_spec t h.1
    obtain ⟨its, h3, h4⟩ := inverses_spec ts h.2
    refine ⟨it :: its, ?_, ?_⟩
    · rw [inverses, h1, h3]; rfl
    · rw [List.map_cons, List.map_cons, List.map_cons, h2, h4]
end

mutual
/-- The composed matrices of such an object are invertible. -/
theorem ok_unit : ∀ (t : T3 K), Ok t → ∀ ms, getMatrix t = some ms → ∀ x ∈ ms, x * x⁻¹ = 1
  | .mk k d m ts, h, ms, hm, x, hx => by
    rw [Ok] at h
    rw [getMatrix] at hm
    exact oks_unit ts h.2 m (fun y hy => (inverseMat_ok (h.1 y hy)).2) ms hm x hx
theorem oks_unit : ∀ (ts : List (T3 K)), Oks ts → ∀ acc, (∀ y ∈ acc, y * y⁻¹ = 1) →
    ∀ ms, composeAll acc ts = some ms → ∀ x ∈ ms, x * x⁻¹ = 1
  | [], _, acc, ha, ms, hm, x, hx => by
    rw [composeAll] at hm
    obtain rfl := Option.some.inj hm
    exact ha x hx
  | t :: ts, h, acc, ha, ms, hm, x, hx => by
    rw [Oks] at h
    rw [composeAll] at hm
    obtain ⟨o, ho, hm⟩ := Option.bind_eq_some_iff.mp hm
    obtain ⟨r, hr, hm⟩ := Option.bind_eq_some_iff.mp hm
    refine oks_unit ts h.2 r ?_ ms hm x hx
    intro y hy
    obtain ⟨n, -, rfl⟩ := bcast_eq_some.mp hr
    obtain ⟨i, -, rfl⟩ := List.mem_map.mp hy
    have hu := ok_unit t h.1 o ho
    have h1 : pick (1 : M4 K) acc i * (pick 1 acc i)⁻¹ = 1 := by
      rcases pick_mem (1 : M4 K) acc i with e | e
      · exact ha _ e
      · rw [e]; simp
    have h2 : pick (1 : M4 K) o i * (pick 1 o i)⁻¹ = 1 := by
      rcases pick_mem (1 : M4 K) o i with e | e
      · exact hu _ e
      · rw [e]; simp
    rw [Matrix.mul_inv_rev, mul_assoc, ← mul_assoc (pick 1 o i), h2, one_mul, h1]
end

/-- **C24 (inverse, element by element).** `t.inverse()` has, for every element, the inverse matrix. -/
theorem inverse_elements {t : T3 K} (h : Ok t) {ms : List (M4 K)} (hm : getMatrix t = some ms) :
    ∃ it is, inverse t = .ok it ∧ getMatrix it = some is ∧ is.length = ms.length ∧
      ∀ p ∈ ms.zip is, p.1 * p.2 = 1 ∧ p.2 * p.1 = 1 := by
  obtain ⟨it, h1, h2⟩ := inverse_spec t h
  refine ⟨it, ms.map (·⁻¹), h1, ?_, by simp, ?_⟩
  · have : matB t = (some ms : B K) := hm
    rw [this] at h2
    exact h2
  · intro p hp
    rw [List.zip_map_right, List.mem_map] at hp
    obtain ⟨q, hq, rfl⟩ := hp
    have hz : q.1 ∈ ms ∧ q.2 = q.1 := by
      obtain ⟨i, hi, rfl⟩ := List.mem_iff_getElem.mp hq
      simp [List.getElem_zip]
    have := ok_unit t h ms hm q.1 hz.1
    simp only [Prod.map_fst, Prod.map_snd, id_eq, hz.2]
    exact ⟨this, mul_eq_one_comm.mp this⟩

/-- **C24 (inverse, both ways).** Inverting the composed matrix gives the same matrices. -/
theorem inverseComposed_spec {t : T3 K} (h : Ok t) {ms : List (M4 K)} (hm : getMatrix t = some ms) :
    ∃ it, inverseComposed t = .ok it ∧ matB it = B.inv (matB t) := by
  have hu := ok_unit t h ms hm
  obtain ⟨k, d, m, ts⟩ := t
  refine ⟨.mk .base d (ms.map (·⁻¹)) [], ?_, ?_⟩
  · rw [inverseComposed, hm]
    simp only
    rw [mapM_inverseMat (k := .base)]
    · rfl
    · intro x hx
      show x.det ≠ 0
      intro h0
      have := congrArg Matrix.det (hu x hx)
      rw [Matrix.det_mul, h0, zero_mul, Matrix.det_one] at this
      exact zero_ne_one this
  · have : matB (.mk k d m ts) = (some ms : B K) := hm
    rw [this, matB_mk]
    simp only [List.map_nil, List.prod_nil, mul_one]
    rfl

/-- **C24 (rotations).** `Rotate` does not check its matrix: for a matrix that is not orthogonal the
"inverse" is not an inverse. -/
theorem rotate_inverse_wrong {r : M3 K} (h : r * r.transpose ≠ 1) (d : DType) :
    ∃ it, inverse (rotate d [r]) = .ok it ∧ ∀ is, getMatrix it = some is → ∀ x ∈ is,
      rotateMat r * x ≠ 1 := by
  refine ⟨.mk .base d [(rotateMat r).transpose] [], ?_, ?_⟩
  · unfold rotate
    rw [inverse, inverses]
    rfl
  · intro is his x hx
    rw [getMatrix, composeAll] at his
    obtain rfl := Option.some.inj his
    rw [List.mem_singleton] at hx
    subst hx
    have : (rotateMat r).transpose = rotateMat r.transpose := by
      ext i j
      fin_cases i <;> fin_cases j <;> simp [rotateMat, M4.affine, M3.transpose]
    rw [this]
    unfold rotateMat
    rw [affine_mul]
    intro hc
    apply h
    have h2 := congrArg M4.linear hc
    have hl : ∀ (A : M3 K) (t : V3 K), M4.linear (M4.affine A t) = A := by
      intro A t; ext <;> simp [M4.linear, M4.affine]
    rw [hl, ← affine_one, hl] at h2
    exact h2

/-! ### stack and indexing -/

/-- **C24 (stack).** The matrices of a stack are the concatenated matrices. -/
theorem stack_matrix {t : T3 K} {others : List (T3 K)} {s : T3 K} (h : stack t others = some s) :
    ∃ l, (t :: others).mapM getMatrix = some l ∧ getMatrix s = some l.flatten := by
  obtain ⟨k, d, m, ts⟩ := t
  unfold stack at h
  simp only at h
  obtain ⟨l, h1, rfl⟩ := Option.map_eq_some_iff.mp h
  refine ⟨l, h1, ?_⟩
  rw [getMatrix, composeAll]

/-- **C24 (indexing).** Indexing selects the matrices, for every class but RotateAxisAngle … -/
theorem getitem_matrix {k : Kind} {d : DType} {m : List (M4 K)} {ts : List (T3 K)}
    (hk : k ≠ .base → ts = []) (hm : k ≠ .base → ∀ x ∈ m, KindOk k x) (hne : k ≠ .rotateAxisAngle) {ms s : List (M4 K)}
    {idx : List Int} (h1 : getMatrix (.mk k d m ts) = some ms) (h2 : select ms idx = .ok s) :
    ∃ r, getitem (.mk k d m ts) idx = .ok r ∧ getMatrix r = some s := by
  have hsel : ∀ x ∈ s, x ∈ ms := by
    intro x hx
    clear h1 hk hm hne
    unfold select at h2
    induction idx generalizing s with
    | nil =>
      rw [List.mapM_nil] at h2
      obtain rfl := Except.ok.inj h2
      exact absurd hx List.not_mem_nil
    | cons i idx ih =>
      rw [List.mapM_cons] at h2
      rcases hi : selectOne ms i with e | y
      · rw [hi] at h2; cases h2
      · rw [hi] at h2
        rcases hr : idx.mapM (selectOne ms) with e | r
        · rw [hr] at h2; cases h2
        · rw [hr] at h2
          obtain rfl := Except.ok.inj h2
          rcases List.mem_cons.mp hx with rfl | hx
          · unfold selectOne at hi
            split_ifs at hi
            · split at hi
              · rename_i hg
                obtain rfl := Except.ok.inj hi
                exact List.mem_of_getElem? hg
              · cases hi
            · split at hi
              · rename_i hg
                obtain rfl := Except.ok.inj hi
                exact List.mem_of_getElem? hg
              · cases hi
          · exact ih hr hx
  have hnb : k ≠ .base → ms = m := by
    intro hb
    rw [hk hb, getMatrix, composeAll] at h1
    exact (Option.some.inj h1).symm
  have hid : ∀ f : M4 K → M4 K, (∀ x ∈ s, f x = x) → s.map f = s := by
    intro f hf
    conv_rhs => rw [← List.map_id s]
    exact List.map_congr_left hf
  have hgm : ∀ (k : Kind) (d : DType) (l : List (M4 K)), getMatrix (.mk k d l []) = some l := by
    intro k d l; rw [getMatrix, composeAll]
  cases k with
  | base =>
    refine ⟨.mk .base d s [], ?_, hgm _ _ _⟩
    unfold getitem; simp only [h1, h2]; rfl
  | translate =>
    refine ⟨_, by unfold getitem; simp only [h1, h2]; rfl, ?_⟩
    rw [hgm, hid]
    intro x hx
    obtain ⟨v, rfl⟩ := hm (by simp) x (by rw [← hnb (by simp)]; exact hsel x hx)
    congr 1
  | scale =>
    refine ⟨_, by unfold getitem; simp only [h1, h2]; rfl, ?_⟩
    rw [hgm, hid]
    intro x hx
    obtain ⟨v, -, -, -, rfl⟩ := hm (by simp) x (by rw [← hnb (by simp)]; exact hsel x hx)
    congr 1
  | rotate =>
    refine ⟨_, by unfold getitem; simp only [h1, h2]; rfl, ?_⟩
    rw [hgm, hid]
    intro x hx
    obtain ⟨r, -, rfl⟩ := hm (by simp) x (by rw [← hnb (by simp)]; exact hsel x hx)
    congr 1
  | rotateAxisAngle => exact absurd rfl hne

/-- … which always raises … -/
theorem getitem_rotateAxisAngle (d : DType) (m : List (M4 K)) (ts : List (T3 K)) (idx : List Int) :
    ∃ e, getitem (.mk .rotateAxisAngle d m ts) idx = .error e := by
  unfold getitem
  rcases getMatrix (.mk .rotateAxisAngle d m ts) with _ | ms
  · exact ⟨_, rfl⟩
  · simp only
    rcases select ms idx with e | s
    · exact ⟨e, rfl⟩
    · exact ⟨_, rfl⟩

/-- … and Translate, Scale and Rotate always come back with `float32`. -/
theorem getitem_dtype {k : Kind} (hk : k = .translate ∨ k = .scale ∨ k = .rotate) {d : DType} {m : List (M4 K)}
    {ts : List (T3 K)} {idx : List Int} {r : T3 K} (h : getitem (.mk k d m ts) idx = .ok r) :
    ∃ k' m' ts', r = .mk k' .f32 m' ts' := by
  unfold getitem at h
  rcases hg : getMatrix (.mk k d m ts) with _ | ms
  · rw [hg] at h; cases h
  · rw [hg] at h
    simp only at h
    rcases hs : select ms idx with e | s
    · rw [hs] at h; cases h
    · rw [hs] at h
      rcases hk with rfl | rfl | rfl <;> · obtain rfl := Except.ok.inj h; exact ⟨_, _, _, rfl⟩

/-! ### Constructors -/

/-- **C24 (constructors).** `Translate(x, y, z)` and `Scale(x, y, z)` broadcast scalars and vectors: the
result has as many matrices as the longest argument, and each is the matrix of the corresponding values. -/
theorem translate_vec {a b c : List K} (d : DType) {N : Nat} (hN : N = max a.length (max b.length c.length))
    (ha : a.length = 1 ∨ a.length = N) (hb : b.length = 1 ∨ b.length = N) (hc : c.length = 1 ∨ c.length = N) :
    ∃ t, translate d (.vec a) (.vec b) (.vec c) = .ok t ∧ getMatrix t
      = some ((List.range N).map fun i => translateMat ⟨pick 0 a i, pick 0 b i, pick 0 c i⟩) := by
  refine ⟨.mk .translate d ((List.range N).map fun i => translateMat ⟨pick 0 a i, pick 0 b i, pick 0 c i⟩) [],
    ?_, by rw [getMatrix, composeAll]⟩
  unfold translate handleInput
  simp only [handleCoord, Bool.false_and]
  subst hN
  show (do
    let l ← (if (a.length = 1 ∨ a.length = _) ∧ (b.length = 1 ∨ b.length = _) ∧ (c.length = 1 ∨ c.length = _)
      then Except.ok _ else Except.error _)
    Except.ok _) = _
  rw [if_pos ⟨ha, hb, hc⟩]
  show Except.ok _ = _
  rw [List.map_map]
  rfl

theorem translate_error {a b c : List K} (d : DType) {N : Nat} (hN : N = max a.length (max b.length c.length))
    (h : ¬ ((a.length = 1 ∨ a.length = N) ∧ (b.length = 1 ∨ b.length = N) ∧ (c.length = 1 ∨ c.length = N))) :
    translate d (.vec a) (.vec b) (.vec c) = .error .value := by
  unfold translate handleInput
  simp only [handleCoord, Bool.false_and]
  subst hN
  show (do
    let l ← (if (a.length = 1 ∨ a.length = _) ∧ (b.length = 1 ∨ b.length = _) ∧ (c.length = 1 ∨ c.length = _)
      then Except.ok _ else Except.error _)
    Except.ok _) = _
  rw [if_neg h]
  rfl

/-- A single uniform scale. -/
theorem scale_singleton (d : DType) (c : K) : ∃ t, scale d (.scalar c) .none .none = .ok t
    ∧ getMatrix t = some [scaleMat ⟨c, c, c⟩] :=
  ⟨.mk .scale d [scaleMat ⟨c, c, c⟩] [], rfl, by rw [getMatrix, composeAll]⟩

/-! ### Points -/

section points
variable [LinearOrder K] [IsStrictOrderedRing K]

theorem transformPoint_affine (p : V3 K) (A : M3 K) (t : V3 K) :
    transformPoint none p (M4.affine A t) = M3.vecMul p A + t := by
  unfold transformPoint clampDenom
  ext <;> simp [hrow, M4.affine, Matrix.vecMul, dotProduct, Fin.sum_univ_four, M3.vecMul]

/-- The matrices of the constructors act as expected on points (row vectors). -/
theorem transformPoint_kinds (p v : V3 K) (r : M3 K) :
    transformPoint none p (translateMat v) = p + v
    ∧ transformPoint none p (scaleMat v) = ⟨p.x * v.x, p.y * v.y, p.z * v.z⟩
    ∧ transformPoint none p (rotateMat r) = M3.vecMul p r := by
  unfold translateMat scaleMat rotateMat
  refine ⟨?_, ?_, ?_⟩ <;> rw [transformPoint_affine] <;> ext <;> simp [M3.vecMul]

theorem hrow_smul (q : Fin 4 → K) (hw : q 3 ≠ 0) :
    hrow ⟨q 0 / q 3, q 1 / q 3, q 2 / q 3⟩ = (q 3)⁻¹ • q := by
  funext i
  fin_cases i <;> simp [hrow, div_eq_inv_mul, hw]

/-- **C24 (points).** Projecting twice is projecting with the product, when the first homogeneous
coordinate is not 0. -/
theorem transformPoint_mul (p : V3 K) (m n : M4 K) (hw : Matrix.vecMul (hrow p) m 3 ≠ 0) :
    transformPoint none (transformPoint none p m) n = transformPoint none p (m * n) := by
  unfold transformPoint clampDenom
  simp only
  rw [hrow_smul _ hw, ← Matrix.vecMul_vecMul, Matrix.smul_vecMul]
  generalize Matrix.vecMul (hrow p) m = q at *
  have h : ∀ i, ((q 3)⁻¹ • Matrix.vecMul q n) i / ((q 3)⁻¹ • Matrix.vecMul q n) 3
      = Matrix.vecMul q n i / Matrix.vecMul q n 3 := by
    intro i
    simp only [Pi.smul_apply, smul_eq_mul]
    rw [mul_div_mul_left _ _ (inv_ne_zero hw)]
  rw [h, h, h]

theorem toBatch_outShape {pts : Pts K} {out : List (List (V3 K))} : (outShape pts out).toBatch = out := by
  unfold outShape
  split <;> rfl

theorem outShape_outShape {pts : Pts K} {o1 o2 : List (List (V3 K))} (h : o1.length = 1 ∨ o1.length = o2.length) :
    outShape (outShape pts o1) o2 = outShape pts o2 := by
  cases pts with
  | batch l => cases o1 <;> cases o2 <;> rfl
  | single l =>
    rcases o1 with _ | ⟨a, _ | ⟨b, o1⟩⟩
    · simp at h
      have : o2 = [] := List.eq_nil_of_length_eq_zero h.symm
      subst this; rfl
    · rcases o2 with _ | ⟨c, _ | ⟨d, o2⟩⟩ <;> rfl
    · rcases o2 with _ | ⟨c, _ | ⟨d, o2⟩⟩
      · rfl
      · simp at h
      · rfl

/-- **C24 (points, batches).** Transforming by `t.compose(s)` is transforming by `t` and then by `s`, for
all combinations of batch sizes and point shapes, when no intermediate point is at infinity. -/
theorem transformPoints_compose {t s : T3 K} {pts q : Pts K} (h : transformPoints t none pts = .ok q)
    (hw : ∀ ms, getMatrix t = some ms → ∀ m ∈ ms, ∀ l ∈ pts.toBatch, ∀ p ∈ l, Matrix.vecMul (hrow p) m 3 ≠ 0) :
    transformPoints (compose t [s]) none pts = transformPoints s none q := by
  unfold transformPoints at h
  rcases hm : getMatrix t with _ | ms
  · rw [hm] at h; cases h
  rw [hm] at h
  simp only at h
  rcases hb : bcast [] 1 (fun ps m => ps.map fun p => transformPoint none p m) pts.toBatch ms with _ | o1
  · rw [hb] at h; cases h
  rw [hb] at h
  obtain rfl := Except.ok.inj h
  have hc : getMatrix (compose t [s]) = (getMatrix s).bind fun o => bmm ms o := by
    have := matB_compose t [s]
    rw [List.map_cons, List.map_nil, List.prod_cons, List.prod_nil, mul_one] at this
    have e : matB t = (some ms : B K) := hm
    rw [e] at this
    exact this
  unfold transformPoints
  rw [hc, toBatch_outShape]
  rcases hs : getMatrix s with _ | ns
  · rfl
  simp only [Option.bind_some]
  have hassoc := bcast_assoc (da := ([] : List (V3 K))) (db := (1 : M4 K)) (dc := (1 : M4 K))
    (fun ps m => ps.map fun p => transformPoint none p m) (· * ·)
    (fun ps m => ps.map fun p => transformPoint none p m)
    (fun ps m => ps.map fun p => transformPoint none p m) [] 1 pts.toBatch ms ns (by
      intro i
      simp only [List.map_map]
      apply List.map_congr_left
      intro p hp
      apply transformPoint_mul
      rcases pick_mem [] pts.toBatch i with e | e
      · rcases pick_mem (1 : M4 K) ms i with e' | e'
        · exact hw ms hm _ e' _ e p hp
        · rw [e', Matrix.vecMul_one]; simp [hrow]
      · rw [e] at hp; exact absurd hp List.not_mem_nil)
  rw [hb, Option.bind_some] at hassoc
  rw [hassoc]
  show (match bmm ms ns with | none => _ | some ms => _) = _
  unfold bmm at *
  rcases hbm : bcast (1 : M4 K) 1 (· * ·) ms ns with _ | r
  · rfl
  · simp only [Option.bind_some]
    rw [hbm, Option.bind_some] at hassoc
    rcases ho : bcast [] 1 (fun ps m => ps.map fun p => transformPoint none p m) pts.toBatch r with _ | o2
    · rfl
    · simp only
      rw [ho] at hassoc
      obtain ⟨n, hn, rfl⟩ := bcast_eq_some.mp hassoc
      rw [outShape_outShape]
      have := (blen_cases hn).1
      simpa using this

/-- **C24 (eps).** With `eps` the division is always by a number of size at least `eps`, and
nothing changes when the homogeneous coordinate is already that large. -/
theorem clampDenom_spec (e w : K) : e ≤ |clampDenom (some e) w|
    ∧ (e ≤ |w| → clampDenom (some e) w = w) := by
  unfold clampDenom
  constructor
  · simp only
    rw [abs_mul]
    have h1 : |(if w < 0 then (-1 : K) else 1)| = 1 := by split_ifs <;> simp
    rw [h1, one_mul]
    exact le_trans (le_max_right _ _) (le_abs_self _)
  · intro h
    simp only
    rw [max_eq_left h]
    split_ifs with h0
    · rw [abs_of_neg h0]; ring
    · rw [abs_of_nonneg (not_lt.mp h0)]; ring

/-! ### C25: normals -/

theorem normalMat_ok {m : M4 K} (h : (M4.linear m).det ≠ 0) :
    ∃ n, normalMat m = .ok n ∧ (M4.linear m).transpose * n = 1 ∧ n * (M4.linear m).transpose = 1 := by
  have h' : (M4.linear m).transpose.det ≠ 0 := by rwa [M3.det_transpose]
  refine ⟨_, if_neg h', ?_, ?_⟩
  · have := M3.mul_adj (M4.linear m).transpose
    generalize (M4.linear m).transpose = a at *
    have hs : ∀ (c : K) (x y : M3 K), x * (c • y) = c • (x * y) := by
      intro c x y; ext <;> simp only [M3.mul_def, M3.smul_def] <;> ring
    rw [hs, this]
    ext <;> simp [M3.smul_def, h']
  · have := M3.adj_mul (M4.linear m).transpose
    generalize (M4.linear m).transpose = a at *
    have hs : ∀ (c : K) (x y : M3 K), (c • x) * y = c • (x * y) := by
      intro c x y; ext <;> simp only [M3.mul_def, M3.smul_def] <;> ring
    rw [hs, this]
    ext <;> simp [M3.smul_def, h']

theorem dot_vecMul (v w : V3 K) (a b : M3 K) :
    V3.dot (M3.vecMul v a) (M3.vecMul w b) = V3.dot (M3.vecMul v (a * b.transpose)) w := by
  simp only [V3.dot, M3.vecMul, M3.mul_def, M3.transpose]; ring

/-- **C25.** A transformed normal has the same scalar product with every transformed direction as before;
so perpendicular directions stay perpendicular, for every invertible linear part. -/
theorem normal_dot {m : M4 K} {n : M3 K} (h : normalMat m = .ok n) (nv d : V3 K) :
    V3.dot (M3.vecMul nv n) (M3.vecMul d (M4.linear m)) = V3.dot nv d := by
  have hd : (M4.linear m).det ≠ 0 := by
    intro h0
    unfold normalMat at h
    simp only [M3.det_transpose, h0, if_true] at h
    cases h
  obtain ⟨n', h1, h2, h3⟩ := normalMat_ok hd
  rw [h] at h1
  obtain rfl := Except.ok.inj h1
  rw [dot_vecMul, h3]
  simp [M3.vecMul, V3.dot]

/-- Directions between points: for affine transforms the difference of transformed points is the
transformed difference, so normals stay perpendicular to edges. -/
theorem normal_perp {A : M3 K} {t : V3 K} {n : M3 K} (h : normalMat (M4.affine A t) = .ok n) (nv p q : V3 K) :
    V3.dot (M3.vecMul nv n) (transformPoint none p (M4.affine A t) - transformPoint none q (M4.affine A t))
      = V3.dot nv (p - q) := by
  have hl : M4.linear (M4.affine A t) = A := by ext <;> simp [M4.linear, M4.affine]
  rw [← normal_dot h nv (p - q), transformPoint_affine, transformPoint_affine, hl]
  congr 1
  ext <;> simp only [M3.vecMul, V3.sub_x, V3.sub_y, V3.sub_z, V3.add_x, V3.add_y, V3.add_z] <;> ring

/-- **C25.** For rotations normals are rotated like points. -/
theorem normalMat_rot {r : M3 K} (h : r.IsRot) (t : V3 K) : normalMat (M4.affine r t) = .ok r := by
  have hl : M4.linear (M4.affine r t) = r := by ext <;> simp [M4.linear, M4.affine]
  unfold normalMat
  rw [hl]
  simp only [M3.det_transpose, h.det, one_ne_zero, if_false, inv_one]
  rw [M3.one_smul', h.transpose.adj_eq, M3.transpose_transpose]

/-- **C25.** Normal matrices of affine transforms multiply like the transforms. -/
theorem normalMat_mul {A A' : M3 K} {t t' : V3 K} {n n' : M3 K} (h : normalMat (M4.affine A t) = .ok n)
    (h' : normalMat (M4.affine A' t') = .ok n') :
    normalMat (M4.affine A t * M4.affine A' t') = .ok (n * n') := by
  have hl : ∀ (A : M3 K) (t : V3 K), M4.linear (M4.affine A t) = A := by
    intro A t; ext <;> simp [M4.linear, M4.affine]
  have hd : ∀ {A : M3 K} {t : V3 K} {n : M3 K}, normalMat (M4.affine A t) = .ok n → A.det ≠ 0
      ∧ A.transpose * n = 1 ∧ n * A.transpose = 1 := by
    intro A t n h
    have h0 : A.det ≠ 0 := by
      intro h0
      unfold normalMat at h
      simp only [M3.det_transpose, hl, h0, if_true] at h
      cases h
    obtain ⟨x, h1, h2, h3⟩ := normalMat_ok (m := M4.affine A t) (by rw [hl]; exact h0)
    rw [h] at h1
    obtain rfl := Except.ok.inj h1
    rw [hl] at h2 h3
    exact ⟨h0, h2, h3⟩
  obtain ⟨a1, a2, a3⟩ := hd h
  obtain ⟨b1, b2, b3⟩ := hd h'
  rw [affine_mul]
  obtain ⟨x, h1, h2, h3⟩ := normalMat_ok (m := M4.affine (A * A') (M3.vecMul t A' + t'))
    (by rw [hl, M3.det_mul]; exact mul_ne_zero a1 b1)
  rw [h1]
  congr 1
  rw [hl, M3.transpose_mul] at h2 h3
  have : n * n' * (A'.transpose * A.transpose) = 1 := by
    rw [mul_assoc, ← mul_assoc n', b3, one_mul, a3]
  calc x = n * n' * (A'.transpose * A.transpose) * x := by rw [this, one_mul]
    _ = n * n' := by rw [mul_assoc, h2, mul_one]

theorem mapM_normalMat {f : M4 K → M3 K} : ∀ {ms : List (M4 K)}, (∀ m ∈ ms, normalMat m = .ok (f m)) →
    ms.mapM normalMat = .ok (ms.map f)
  | [], _ => rfl
  | x :: m, h => by
    rw [List.mapM_cons, h x (by simp), mapM_normalMat (fun y hy => h y (List.mem_cons_of_mem _ hy))]
    rfl

/-- **C25 (batches).** For every batch of rigid motions and every shape of the normals,
`transform_normals` is the rotation part of `transform_points`. -/
theorem transformNormals_rigid {t : T3 K} {ms : List (M4 K)} (h : getMatrix t = some ms) (f : M4 K → M3 K)
    (hr : ∀ m ∈ ms, (f m).IsRot ∧ ∃ v, m = M4.affine (f m) v) (nrm : Pts K) :
    transformNormals t nrm = transformPoints (rotate .f32 (ms.map f)) none nrm := by
  have h1 : ms.mapM normalMat = .ok (ms.map f) := by
    apply mapM_normalMat
    intro m hm
    obtain ⟨h2, v, h3⟩ := hr m hm
    have := normalMat_rot h2 v
    rwa [← h3] at this
  have h2 : getMatrix (rotate .f32 (ms.map f)) = some ((ms.map f).map rotateMat) := by
    unfold rotate
    rw [getMatrix, composeAll]
  unfold transformNormals transformPoints
  rw [h, h2]
  simp only [h1]
  show (match bcast [] 1 (fun ps m => ps.map fun p => M3.vecMul p m) nrm.toBatch (ms.map f) with
    | none => Except.error Err.value
    | some out => Except.ok (outShape nrm out)) = _
  have : bcast [] 1 (fun ps m => ps.map fun p => M3.vecMul p m) nrm.toBatch (ms.map f)
      = bcast [] 1 (fun ps m => ps.map fun p => transformPoint none p m) nrm.toBatch ((ms.map f).map rotateMat) := by
    unfold bcast
    rw [List.length_map (as := ms.map f)]
    congr 1
    funext n
    apply List.map_congr_left
    intro i _
    have e1 : pick (1 : M4 K) ((ms.map f).map rotateMat) i = rotateMat (pick 1 (ms.map f) i) := by
      have := pick_map (1 : M3 K) rotateMat (ms.map f) i
      rwa [show rotateMat (1 : M3 K) = 1 from affine_one] at this
    rw [e1]
    apply List.map_congr_left
    intro p _
    rw [(transformPoint_kinds p 0 _).2.2]
  rw [this]
  cases bcast [] 1 (fun ps m => ps.map fun p => transformPoint none p m) nrm.toBatch ((ms.map f).map rotateMat) <;> rfl

/-- **C25 (batches, general).** Whenever `transform_normals` succeeds, each output normal has the scalar
product with each transformed direction that the input normal had with the direction. -/
theorem transformNormals_dot {t : T3 K} {nrm q : Pts K} (h : transformNormals t nrm = .ok q) :
    ∃ ms n, getMatrix t = some ms ∧ blen nrm.toBatch.length ms.length = some n ∧ q.toBatch.length = n ∧
      ∀ i < n, ∃ out, q.toBatch[i]? = some out ∧ List.Forall₂ (fun a b => ∀ d : V3 K,
        V3.dot b (M3.vecMul d (M4.linear (pick 1 ms i))) = V3.dot a d) (pick [] nrm.toBatch i) out := by
  unfold transformNormals at h
  rcases hm : getMatrix t with _ | ms
  · rw [hm] at h; cases h
  rw [hm] at h
  simp only at h
  rcases hn : ms.mapM normalMat with e | ns
  · rw [hn] at h; cases h
  rw [hn] at h
  have hall : List.Forall₂ (fun m n => normalMat m = .ok n) ms ns := by
    clear h hm
    induction ms generalizing ns with
    | nil => rw [List.mapM_nil] at hn; obtain rfl := Except.ok.inj hn; exact .nil
    | cons m ms ih =>
      rw [List.mapM_cons] at hn
      rcases h1 : normalMat m with e | x
      · rw [h1] at hn; cases hn
      · rw [h1] at hn
        rcases h2 : ms.mapM normalMat with e | xs
        · rw [h2] at hn; cases hn
        · rw [h2] at hn
          obtain rfl := Except.ok.inj hn
          exact .cons h1 (ih xs h2)
  have hlen := hall.length_eq
  change (match bcast [] 1 (fun ps m => ps.map fun p => M3.vecMul p m) nrm.toBatch ns with
    | none => Except.error Err.value
    | some out => Except.ok (outShape nrm out)) = _ at h
  rcases hb : bcast [] 1 (fun ps m => ps.map fun p => M3.vecMul p m) nrm.toBatch ns with _ | o
  · rw [hb] at h; cases h
  rw [hb] at h
  obtain rfl := Except.ok.inj h
  obtain ⟨n, h1, rfl⟩ := bcast_eq_some.mp hb
  rw [toBatch_outShape]
  refine ⟨ms, n, rfl, by rw [hlen]; exact h1, by simp, ?_⟩
  intro i hi
  refine ⟨_, by rw [List.getElem?_map, List.getElem?_range hi]; rfl, ?_⟩
  rw [List.forall₂_map_right_iff, List.forall₂_same]
  intro a _ d
  apply normal_dot
  unfold pick
  rw [hlen]
  have hz := (List.forall₂_iff_get.mp hall).2
  rcases lt_or_ge (if ns.length = 1 then 0 else i) ns.length with hlt | hge
  · have := hz (if ns.length = 1 then 0 else i) (by omega) hlt
    simpa [List.getD_eq_getElem?_getD, hlt, hlen] using this
  · rw [List.getD_eq_getElem?_getD, List.getD_eq_getElem?_getD, List.getElem?_eq_none (by omega),
      List.getElem?_eq_none hge]
    have := normalMat_rot (K := K) (r := 1) M3.IsRot.one 0
    rwa [affine_one] at this

end points

/-! ### Examples -/

example : (matB (compose (rotate .f32 [(1 : M3 ℚ)]) [.mk .translate .f32 [translateMat ⟨1, 2, 3⟩] []]) : B ℚ)
    = (some [rotateMat 1] : B ℚ) * (some [translateMat ⟨1, 2, 3⟩] : B ℚ) := by
  unfold rotate
  rw [matB_compose, matB_mk]
  simp [matB_mk]

example : blen 2 3 = none ∧ blen 1 3 = some 3 ∧ blen 4 1 = some 4 := by decide

example : transformPoint none (⟨1, 2, 3⟩ : V3 ℚ) (translateMat ⟨10, 20, 30⟩) = ⟨11, 22, 33⟩ := by
  rw [(transformPoint_kinds _ _ 1).1]
  ext <;> norm_num

/-- A shear: the normal of the sheared plane is not the sheared normal. -/
example : normalMat (M4.affine (⟨1, 1, 0, 0, 1, 0, 0, 0, 1⟩ : M3 ℚ) 0) = .ok ⟨1, 0, 0, -1, 1, 0, 0, 0, 1⟩ := by
  have hl : M4.linear (M4.affine (⟨1, 1, 0, 0, 1, 0, 0, 0, 1⟩ : M3 ℚ) 0) = ⟨1, 1, 0, 0, 1, 0, 0, 0, 1⟩ := by
    ext <;> simp [M4.linear, M4.affine]
  unfold normalMat
  rw [hl]
  norm_num [M3.transpose, M3.det, M3.adj, M3.smul_def]

end P3D.T3d
