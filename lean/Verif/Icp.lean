/-
`iterative_closest_point`, `ops/points_alignment.py:38-235`.

A batch of `b` pairs of clouds padded to `n` and `m` points.  The nearest neighbours come from `knn_points(K=1)`, described by its
specification (any choice among ties; the rows beyond `lengths1` get index 0).  Numbers are real; a relative error `0/0` is not a number, which
is not below the threshold.  Not modelled: the shape checks, messages, `Pointclouds.update_padded` of the result, rounding.
-/
import Verif.SvdExists
import Mathlib.Data.Fintype.Pigeonhole
import Mathlib.Tactic.FinCases

set_option linter.unusedSectionVars false

namespace P3D.Icp

open Matrix P3D.Align

noncomputable section

variable {b n m k : Nat}

/-- Arguments of `iterative_closest_point`, with the decomposition and the nearest neighbour search used. -/
structure Cfg (b n m k : Nat) where
  svd : Matrix (Fin (k + 1)) (Fin (k + 1)) ℝ → Matrix (Fin (k + 1)) (Fin (k + 1)) ℝ × (Fin (k + 1) → ℝ) × Matrix (Fin (k + 1)) (Fin (k + 1)) ℝ
  nnIdx : Fin b → Matrix (Fin n) (Fin (k + 1)) ℝ → Fin n → Fin m
  X : Fin b → Matrix (Fin n) (Fin (k + 1)) ℝ
  Y : Fin b → Matrix (Fin m) (Fin (k + 1)) ℝ
  numX : Fin b → Nat
  numY : Fin b → Nat
  estimateScale : Bool
  allowReflection : Bool
  thr : ℝ
  eps : ℝ

variable (c : Cfg b n m k)

/-- points_alignment.py:117-128: the mask is used only if some cloud is padded and some pair has different sizes. -/
def maskX (e : Fin b) (i : Fin n) : ℝ :=
  open Classical in
  if ((∃ e, c.numY e < m) ∨ ∃ e, c.numX e < n) ∧ ∃ e, c.numY e ≠ c.numX e then (if i.val < c.numX e then 1 else 0) else 1

/-- points_alignment.py:173-182: nearest neighbours of the current points. -/
def nnPoints (Xt : Fin b → Matrix (Fin n) (Fin (k + 1)) ℝ) (e : Fin b) : Matrix (Fin n) (Fin (k + 1)) ℝ :=
  Matrix.of fun i => c.Y e (c.nnIdx e (Xt e) i)

/-- points_alignment.py:185-191: the alignment of the initial points with the neighbours; both are tensors, so all `n` rows are points. -/
def stepT (Xt : Fin b → Matrix (Fin n) (Fin (k + 1)) ℝ) (e : Fin b) : Sim k :=
  alignBatch c.svd c.estimateScale c.allowReflection c.eps c.X (nnPoints c Xt) (fun _ => n) (some (maskX c)) e

/-- points_alignment.py:194. -/
def stepX (Xt : Fin b → Matrix (Fin n) (Fin (k + 1)) ℝ) (e : Fin b) : Matrix (Fin n) (Fin (k + 1)) ℝ := apply (c.X e) (stepT c Xt e)

/-- points_alignment.py:200-201. -/
def stepRmse (Xt : Fin b → Matrix (Fin n) (Fin (k + 1)) ℝ) (e : Fin b) : ℝ :=
  √ ((∑ i, (∑ j, (stepX c Xt e i j - nnPoints c Xt e i j) ^ 2) * maskX c e i) / max (∑ i, maskX c e i) c.eps)

/-- points_alignment.py:207 and 218: the relative error is at most the threshold.  With previous error zero the quotient is `0/0` (not a
number, comparison false) or minus infinity. -/
def below (thr prev cur : ℝ) : Prop := if prev = 0 then 0 < cur else (prev - cur) / prev ≤ thr

/-- points_alignment.py:204-218. -/
def stop (prev : Option (Fin b → ℝ)) (cur : Fin b → ℝ) : Prop :=
  match prev with
  | none => ∀ _ : Fin b, 1 ≤ c.thr
  | some p => ∀ e, below c.thr (p e) (cur e)

/-- `ICPSolution`, points_alignment.py:30-35. -/
structure Solution (b n k : Nat) where
  converged : Bool
  rmse : Option (Fin b → ℝ)
  Xt : Fin b → Matrix (Fin n) (Fin (k + 1)) ℝ
  RTs : Fin b → Sim k
  history : List (Fin b → Sim k)

open Classical in
/-- The loop, points_alignment.py:172-223, with `fuel` iterations left. -/
def loop (fuel : Nat) (Xt : Fin b → Matrix (Fin n) (Fin (k + 1)) ℝ) (prev : Option (Fin b → ℝ)) (cur : Fin b → Sim k)
    (hist : List (Fin b → Sim k)) : Solution b n k :=
  match fuel with
  | 0 => ⟨false, prev, Xt, cur, hist⟩
  | fuel + 1 =>
    let t := stepT c Xt
    let rmse := stepRmse c Xt
    if stop c prev rmse then ⟨true, some rmse, stepX c Xt, t, hist ++ [t]⟩
    else loop fuel (stepX c Xt) (some rmse) t (hist ++ [t])

/-- `iterative_closest_point`, points_alignment.py:130-235: start from the transformed points, or from the points and the identity. -/
def icp (init : Option (Fin b → Sim k)) (maxIterations : Nat) : Solution b n k :=
  match init with
  | none => loop c maxIterations c.X none (fun _ => ⟨1, fun _ => 0, 1⟩) []
  | some t => loop c maxIterations (fun e => apply (c.X e) (t e)) none t []

/-! ### Specification -/

/-- What `knn_points(Xt, Yt, lengths1, lengths2, K=1)` returns. -/
def NnOk : Prop :=
  ∀ e Xt i, (i.val < c.numX e → (c.nnIdx e Xt i).val < c.numY e ∧ ∀ q : Fin m, q.val < c.numY e →
      ∑ j, (Xt i j - c.Y e (c.nnIdx e Xt i) j) ^ 2 ≤ ∑ j, (Xt i j - c.Y e q j) ^ 2) ∧
    (c.numX e ≤ i.val → (c.nnIdx e Xt i).val = 0)

/-- Assumptions on the arguments. -/
structure Ok : Prop where
  svd : SvdOk c.svd
  nn : NnOk c
  eps : 0 < c.eps ∧ c.eps ≤ 1
  pos : ∀ e, 0 < c.numX e ∧ c.numX e ≤ n
  scale : c.estimateScale = true → ∀ e, c.eps ≤ variance c.eps (c.X e) n (some (maskX c e))

/-- The points after `j` iterations, without the convergence test. -/
def seq (X0 : Fin b → Matrix (Fin n) (Fin (k + 1)) ℝ) : Nat → Fin b → Matrix (Fin n) (Fin (k + 1)) ℝ
  | 0 => X0
  | j + 1 => stepX c (seq X0 j)

/-- The error of iteration `j`. -/
def rm (X0 : Fin b → Matrix (Fin n) (Fin (k + 1)) ℝ) (j : Nat) : Fin b → ℝ := stepRmse c (seq c X0 j)

/-- The convergence test of iteration `j`. -/
def stopAt (X0 : Fin b → Matrix (Fin n) (Fin (k + 1)) ℝ) (j : Nat) : Prop :=
  match j with
  | 0 => ∀ _ : Fin b, 1 ≤ c.thr
  | j + 1 => ∀ e, below c.thr (rm c X0 j e) (rm c X0 (j + 1) e)

/-- Initial points. -/
def start (init : Option (Fin b → Sim k)) : Fin b → Matrix (Fin n) (Fin (k + 1)) ℝ :=
  match init with
  | none => c.X
  | some t => fun e => apply (c.X e) (t e)

/-! ### The loop -/

theorem loop_spec (X0 : Fin b → Matrix (Fin n) (Fin (k + 1)) ℝ) (fuel : Nat) :
    ∀ (j : Nat) (cur : Fin b → Sim k), (∀ i < j, ¬ stopAt c X0 i) →
    ∃ J, j ≤ J ∧ J ≤ j + fuel ∧
      (loop c fuel (seq c X0 j) (if j = 0 then none else some (rm c X0 (j - 1))) cur ((List.range j).map fun i => stepT c (seq c X0 i)))
        = ⟨(loop c fuel (seq c X0 j) (if j = 0 then none else some (rm c X0 (j - 1))) cur ((List.range j).map fun i => stepT c (seq c X0 i))).converged,
          (if J = 0 then none else some (rm c X0 (J - 1))), seq c X0 J, (if J = j then cur else stepT c (seq c X0 (J - 1))),
          (List.range J).map fun i => stepT c (seq c X0 i)⟩ ∧
      (((loop c fuel (seq c X0 j) (if j = 0 then none else some (rm c X0 (j - 1))) cur ((List.range j).map fun i => stepT c (seq c X0 i))).converged
          = true ∧ 0 < J ∧ stopAt c X0 (J - 1) ∧ ∀ i < J - 1, ¬ stopAt c X0 i) ∨
       ((loop c fuel (seq c X0 j) (if j = 0 then none else some (rm c X0 (j - 1))) cur ((List.range j).map fun i => stepT c (seq c X0 i))).converged
          = false ∧ J = j + fuel ∧ ∀ i < J, ¬ stopAt c X0 i)) := by
  induction fuel with
  | zero =>
    intro j cur hns
    exact ⟨j, le_refl _, le_refl _, by simp [loop], Or.inr ⟨rfl, rfl, hns⟩⟩
  | succ fuel ih =>
    intro j cur hns
    have hstop : stop c (if j = 0 then none else some (rm c X0 (j - 1))) (stepRmse c (seq c X0 j)) ↔ stopAt c X0 j := by
      cases j with
      | zero => rfl
      | succ j => rfl
    have hhist : (List.range j).map (fun i => stepT c (seq c X0 i)) ++ [stepT c (seq c X0 j)]
        = (List.range (j + 1)).map fun i => stepT c (seq c X0 i) := by
      rw [List.range_succ, List.map_append]; rfl
    by_cases h : stopAt c X0 j
    · have e : loop c (fuel + 1) (seq c X0 j) (if j = 0 then none else some (rm c X0 (j - 1))) cur
          ((List.range j).map fun i => stepT c (seq c X0 i)) = ⟨true, some (rm c X0 j), seq c X0 (j + 1), stepT c (seq c X0 j),
            (List.range (j + 1)).map fun i => stepT c (seq c X0 i)⟩ := by
        rw [loop, if_pos (hstop.mpr h), hhist]; rfl
      refine ⟨j + 1, by omega, by omega, ?_, Or.inl ⟨by rw [e], by omega, by simpa using h, by simpa using hns⟩⟩
      rw [e]
      simp
    · have e : loop c (fuel + 1) (seq c X0 j) (if j = 0 then none else some (rm c X0 (j - 1))) cur
          ((List.range j).map fun i => stepT c (seq c X0 i)) = loop c fuel (seq c X0 (j + 1)) (if j + 1 = 0 then none else some (rm c X0 (j + 1 - 1)))
            (stepT c (seq c X0 j)) ((List.range (j + 1)).map fun i => stepT c (seq c X0 i)) := by
        rw [loop, if_neg (fun hh => h (hstop.mp hh)), hhist]; rfl
      rw [e]
      obtain ⟨J, h1, h2, h3, h4⟩ := ih (j + 1) (stepT c (seq c X0 j)) (by
        intro i hi
        rcases Nat.lt_succ_iff_lt_or_eq.mp hi with h' | rfl
        · exact hns i h'
        · exact h)
      refine ⟨J, by omega, by omega, ?_, ?_⟩
      · rw [if_neg (show ¬ J = j by omega)]
        by_cases hJ : J = j + 1
        · subst hJ
          simpa using h3
        · rwa [if_neg hJ] at h3
      · rcases h4 with h4 | ⟨h4, h5, h6⟩
        · exact Or.inl h4
        · exact Or.inr ⟨h4, by omega, h6⟩

/-- `iterative_closest_point` runs up to the first iteration that passes the convergence test, or for `max_iterations` iterations. -/
theorem icp_spec (init : Option (Fin b → Sim k)) (maxIt : Nat) :
    ∃ J ≤ maxIt, (icp c init maxIt).history = (List.range J).map (fun i => stepT c (seq c (start c init) i)) ∧
      (icp c init maxIt).Xt = seq c (start c init) J ∧
      (icp c init maxIt).rmse = (if J = 0 then none else some (rm c (start c init) (J - 1))) ∧
      (0 < J → (icp c init maxIt).RTs = stepT c (seq c (start c init) (J - 1))) ∧
      (((icp c init maxIt).converged = true ∧ 0 < J ∧ stopAt c (start c init) (J - 1) ∧ ∀ i < J - 1, ¬ stopAt c (start c init) i) ∨
       ((icp c init maxIt).converged = false ∧ J = maxIt ∧ ∀ i < J, ¬ stopAt c (start c init) i)) := by
  have key : ∀ cur, (icp c init maxIt) = loop c maxIt (seq c (start c init) 0) none cur [] →
      ∃ J ≤ maxIt, (icp c init maxIt).history = (List.range J).map (fun i => stepT c (seq c (start c init) i)) ∧
      (icp c init maxIt).Xt = seq c (start c init) J ∧
      (icp c init maxIt).rmse = (if J = 0 then none else some (rm c (start c init) (J - 1))) ∧
      (0 < J → (icp c init maxIt).RTs = stepT c (seq c (start c init) (J - 1))) ∧
      (((icp c init maxIt).converged = true ∧ 0 < J ∧ stopAt c (start c init) (J - 1) ∧ ∀ i < J - 1, ¬ stopAt c (start c init) i) ∨
       ((icp c init maxIt).converged = false ∧ J = maxIt ∧ ∀ i < J, ¬ stopAt c (start c init) i)) := by
    intro cur hcur
    obtain ⟨J, -, h2, h3, h4⟩ := loop_spec c (start c init) maxIt 0 cur (by omega)
    simp only [if_true, List.range_zero, List.map_nil, ← hcur, Nat.zero_add] at h2 h3 h4
    refine ⟨J, h2, by rw [h3], by rw [h3], by rw [h3], ?_, h4⟩
    intro hJ
    rw [h3]
    simp [hJ.ne']
  cases init with
  | none => exact key _ rfl
  | some t => exact key t rfl

/-- The returned points are the initial points transformed with the returned transform, which is the last of the history. -/
theorem icp_consistent (init : Option (Fin b → Sim k)) {maxIt : Nat} (h : 0 < maxIt) :
    (icp c init maxIt).history.getLast? = some (icp c init maxIt).RTs ∧
      ∀ e, (icp c init maxIt).Xt e = apply (c.X e) ((icp c init maxIt).RTs e) := by
  obtain ⟨J, -, h1, h2, -, h4, h5⟩ := icp_spec c init maxIt
  have hJ : 0 < J := by
    rcases h5 with ⟨-, h, -⟩ | ⟨-, rfl, -⟩
    · exact h
    · exact h
  obtain ⟨J, rfl⟩ := Nat.exists_eq_succ_of_ne_zero hJ.ne'
  rw [h1, h2, h4 hJ]
  constructor
  · simp [List.range_succ]
  · intro e; rfl

/-! ### The error decreases -/

variable {c}

theorem mask_bin (e : Fin b) (i : Fin n) : maskX c e i = 0 ∨ maskX c e i = 1 := by
  unfold maskX
  split_ifs <;> simp

theorem mask_real {e : Fin b} {i : Fin n} (h : i.val < c.numX e) : maskX c e i = 1 := by
  unfold maskX
  split_ifs <;> rfl

theorem mask_total (h : Ok c) (e : Fin b) : c.eps ≤ ∑ i, maskX c e i := by
  have hp := h.pos e
  have h0 : maskX c e ⟨0, by omega⟩ = 1 := mask_real hp.1
  have h1 : maskX c e ⟨0, by omega⟩ ≤ ∑ i, maskX c e i :=
    Finset.single_le_sum (f := fun i => maskX c e i) (fun i _ => by rcases mask_bin (c := c) e i with h | h <;> rw [h]; norm_num) (Finset.mem_univ _)
  linarith [h.eps.2]

theorem stepT_eq (Xt : Fin b → Matrix (Fin n) (Fin (k + 1)) ℝ) (e : Fin b) :
    stepT c Xt e = align c.svd c.estimateScale c.allowReflection c.eps (c.X e) (nnPoints c Xt e) n (some (maskX c e)) := by
  unfold stepT alignBatch effWeights
  simp

theorem step_admissible (h : Ok c) (Xt : Fin b → Matrix (Fin n) (Fin (k + 1)) ℝ) (e : Fin b) :
    Admissible c.estimateScale c.allowReflection (stepT c Xt e) := by
  rw [stepT_eq]
  exact align_admissible h.svd _ _ h.eps.1 _ _ _ _

/-- Each iteration finds the best transform of the masked points onto the current neighbours. -/
theorem step_min (h : Ok c) (Xt : Fin b → Matrix (Fin n) (Fin (k + 1)) ℝ) (e : Fin b) (t : Sim k)
    (ht : Admissible c.estimateScale c.allowReflection t) :
    cost (c.X e) (nnPoints c Xt e) (maskX c e) (stepT c Xt e) ≤ cost (c.X e) (nnPoints c Xt e) (maskX c e) t := by
  rw [stepT_eq]
  exact align_min (w := some (maskX c e)) h.svd _ _ h.eps.1 _ _ _ (mask_total h e) one_pos (mask_bin e) (fun hs => h.scale hs e) t ht

theorem rmse_eq (Xt : Fin b → Matrix (Fin n) (Fin (k + 1)) ℝ) (e : Fin b) :
    stepRmse c Xt e = √ (cost (c.X e) (nnPoints c Xt e) (maskX c e) (stepT c Xt e) / max (∑ i, maskX c e i) c.eps) := by
  unfold stepRmse cost stepX apply
  simp only [Matrix.of_apply, Matrix.mul_apply]
  congr 2
  exact Finset.sum_congr rfl fun i _ => mul_comm _ _

theorem cost_nonneg (X Y : Matrix (Fin n) (Fin (k + 1)) ℝ) (e : Fin b) (t : Sim k) : 0 ≤ cost X Y (maskX c e) t :=
  Finset.sum_nonneg fun i _ => mul_nonneg (by rcases mask_bin (c := c) e i with h | h <;> rw [h]; norm_num)
    (Finset.sum_nonneg fun j _ => sq_nonneg _)

/-- The error never increases from one iteration to the next. -/
theorem rmse_antitone (h : Ok c) (X0 : Fin b → Matrix (Fin n) (Fin (k + 1)) ℝ) (j : Nat) (e : Fin b) : rm c X0 (j + 1) e ≤ rm c X0 j e := by
  unfold rm
  rw [rmse_eq, rmse_eq]
  have hM : 0 < max (∑ i, maskX c e i) c.eps := lt_of_lt_of_le h.eps.1 (le_max_right _ _)
  apply Real.sqrt_le_sqrt
  apply div_le_div_of_nonneg_right _ hM.le
  refine le_trans (step_min h _ e _ (step_admissible h (seq c X0 j) e)) ?_
  unfold cost
  refine Finset.sum_le_sum fun i _ => ?_
  refine mul_le_mul_of_nonneg_left ?_ (by rcases mask_bin (c := c) e i with h | h <;> rw [h]; norm_num)
  by_cases hi : i.val < c.numX e
  · have hn := (h.nn e (seq c X0 (j + 1) e) i).1 hi
    have hold := ((h.nn e (seq c X0 j e) i).1 hi).1
    have hmin := hn.2 (c.nnIdx e (seq c X0 j e) i) hold
    have hseq : ∀ j', seq c X0 (j + 1) e i j'
        = (stepT c (seq c X0 j) e).s * (∑ l, c.X e i l * (stepT c (seq c X0 j) e).R l j') + (stepT c (seq c X0 j) e).T j' := by
      intro j'
      show apply (c.X e) (stepT c (seq c X0 j) e) i j' = _
      unfold apply
      rw [Matrix.of_apply, Matrix.mul_apply]
    simp only [hseq] at hmin
    exact hmin
  · have h1 := (h.nn e (seq c X0 (j + 1) e) i).2 (by omega)
    have h2 := (h.nn e (seq c X0 j e) i).2 (by omega)
    have : c.nnIdx e (seq c X0 (j + 1) e) i = c.nnIdx e (seq c X0 j e) i := Fin.ext (by rw [h1, h2])
    unfold nnPoints
    simp only [Matrix.of_apply, this]
    exact le_refl _

theorem rmse_mono (h : Ok c) (X0 : Fin b → Matrix (Fin n) (Fin (k + 1)) ℝ) {i j : Nat} (hij : i ≤ j) (e : Fin b) : rm c X0 j e ≤ rm c X0 i e := by
  induction j, hij using Nat.le_induction with
  | base => exact le_refl _
  | succ j _ ih => exact le_trans (rmse_antitone h X0 j e) ih

theorem rmse_nonneg (X0 : Fin b → Matrix (Fin n) (Fin (k + 1)) ℝ) (j : Nat) (e : Fin b) : 0 ≤ rm c X0 j e := Real.sqrt_nonneg _

/-- Convergence: with a non-negative threshold, unless an error becomes exactly zero, the loop stops after at most one iteration more than
there are assignments of neighbours. -/
theorem icp_converges (h : Ok c) (hthr : 0 ≤ c.thr) (init : Option (Fin b → Sim k)) {maxIt : Nat}
    (hmax : Fintype.card (Fin b → Fin n → Fin m) + 1 < maxIt) (hnz : ∀ j e, rm c (start c init) j e ≠ 0) :
    (icp c init maxIt).converged = true := by
  set X0 := start c init
  obtain ⟨J, -, -, -, -, -, hres⟩ := icp_spec c init maxIt
  rcases hres with ⟨hc, -⟩ | ⟨-, rfl, hns⟩
  · exact hc
  exfalso
  let f : Fin (Fintype.card (Fin b → Fin n → Fin m) + 1) → (Fin b → Fin n → Fin m) := fun j e i => c.nnIdx e (seq c X0 j.val e) i
  obtain ⟨i, j, hij, hf⟩ := Fintype.exists_ne_map_eq_of_card_lt f (by simp)
  have key : ∀ i j : Fin (Fintype.card (Fin b → Fin n → Fin m) + 1), i < j → f i = f j → False := by
    intro i j hlt hf
    have hnn : nnPoints c (seq c X0 i.val) = nnPoints c (seq c X0 j.val) := by
      funext e
      unfold nnPoints
      ext r q
      simp only [Matrix.of_apply]
      have : c.nnIdx e (seq c X0 i.val e) r = c.nnIdx e (seq c X0 j.val e) r := congrFun (congrFun hf e) r
      rw [this]
    have hT : stepT c (seq c X0 i.val) = stepT c (seq c X0 j.val) := by
      funext e; unfold stepT; rw [hnn]
    have hr : rm c X0 i.val = rm c X0 j.val := by
      funext e
      unfold rm
      rw [rmse_eq, rmse_eq, hnn, hT]
    have hlt' : i.val < j.val := hlt
    apply hns (i.val + 1) (by have := j.isLt; omega)
    intro e
    have e1 := rmse_antitone h X0 i.val e
    have e2 := rmse_mono h X0 (show i.val + 1 ≤ j.val from hlt') e
    rw [← hr] at e2
    have e3 := le_antisymm e1 e2
    unfold below
    rw [if_neg (hnz _ e), e3, sub_self, zero_div]
    exact hthr
  rcases lt_or_gt_of_ne hij with hlt | hgt
  · exact key i j hlt hf
  · exact key j i hgt hf.symm

/-- Once the error of one pair is exactly zero, the loop never reports convergence. -/
theorem icp_zero_stuck (h : Ok c) (hthr : c.thr < 1) (X0 : Fin b → Matrix (Fin n) (Fin (k + 1)) ℝ) {j : Nat} {e : Fin b}
    (hz : rm c X0 j e = 0) {i : Nat} (hi : j ≤ i) : ¬ stopAt c X0 i := by
  have hall : ∀ i, j ≤ i → rm c X0 i e = 0 := fun i hi => le_antisymm (hz ▸ rmse_mono h X0 hi e) (rmse_nonneg X0 i e)
  intro hs
  cases i with
  | zero => exact absurd (hs e) (not_le.mpr hthr)
  | succ i =>
    have hb := hs e
    unfold below at hb
    have hcur := hall (i + 1) hi
    rw [hcur] at hb
    by_cases hp : rm c X0 i e = 0
    · rw [if_pos hp] at hb; exact lt_irrefl _ hb
    · rw [if_neg hp, sub_zero, div_self hp] at hb
      linarith

/-- Registering full clouds with themselves aligns them exactly in the first iteration, but never reports convergence. -/
theorem icp_self (h : Ok c) (hthr : c.thr < 1) (hX : ∀ e i, ∃ q : Fin m, q.val < c.numY e ∧ c.Y e q = c.X e i)
    (hfull : ∀ e, c.numX e = n) (e₀ : Fin b) (maxIt : Nat) :
    (icp c none maxIt).converged = false ∧ (0 < maxIt → ∀ e i, (icp c none maxIt).Xt e i = c.X e i) := by
  have hnn0 : ∀ (Xt : Fin b → Matrix (Fin n) (Fin (k + 1)) ℝ), (∀ e, Xt e = c.X e) → ∀ e, nnPoints c Xt e = c.X e := by
    intro Xt hXt e
    ext i j
    unfold nnPoints
    rw [Matrix.of_apply]
    obtain ⟨q, hq, hqe⟩ := hX e i
    have hmin := ((h.nn e (Xt e) i).1 (by rw [hfull e]; exact i.isLt)).2 q hq
    rw [hXt e, hqe] at hmin
    rw [hXt e]
    have hz : ∑ j, (c.X e i j - c.Y e (c.nnIdx e (c.X e) i) j) ^ 2 = 0 :=
      le_antisymm (by simpa using hmin) (Finset.sum_nonneg fun j _ => sq_nonneg _)
    have := (Finset.sum_eq_zero_iff_of_nonneg (fun j _ => sq_nonneg _)).mp hz j (Finset.mem_univ j)
    have := pow_eq_zero_iff (two_ne_zero) |>.mp this
    linarith
  have hmask : ∀ e i, maskX c e i ≠ 0 := fun e i => by rw [mask_real (by rw [hfull e]; exact i.isLt)]; exact one_ne_zero
  have hstep : ∀ (Xt : Fin b → Matrix (Fin n) (Fin (k + 1)) ℝ), (∀ e, Xt e = c.X e) → ∀ e, stepX c Xt e = c.X e := by
    intro Xt hXt e
    ext i j
    unfold stepX
    rw [stepT_eq, hnn0 Xt hXt e]
    exact align_exact (w := some (maskX c e)) h.svd _ _ h.eps.1 _ _ _ (mask_total h e) (fun hs => h.scale hs e) ⟨1, fun _ => 0, 1⟩
      ⟨⟨by simp, fun _ => by simp⟩, Or.inl zero_le_one, fun _ => rfl⟩ (fun i _ j => by simp [Matrix.one_apply]) i (hmask e i) j
  have hseq : ∀ j e, seq c c.X j e = c.X e := by
    intro j
    induction j with
    | zero => intro e; rfl
    | succ j ih => exact hstep _ ih
  have hz : ∀ e, rm c c.X 0 e = 0 := by
    intro e
    unfold rm stepRmse
    rw [hstep _ (hseq 0) e, hnn0 _ (hseq 0) e]
    simp
  obtain ⟨J, -, -, h2, -, -, hres⟩ := icp_spec c none maxIt
  constructor
  · rcases hres with ⟨-, -, hs, -⟩ | ⟨hc, -⟩
    · exact absurd hs (icp_zero_stuck h hthr c.X (hz e₀) (Nat.zero_le _))
    · exact hc
  · intro _ e i
    rw [h2]
    exact congrFun (hseq J e) i

/-! ### The mask -/

/-- If some pair has clouds of different sizes, or no cloud is padded, exactly the points of the first cloud take part. -/
theorem mask_correct (h : (∃ e, c.numY e ≠ c.numX e) ∨ ∀ e, c.numX e = n) (e : Fin b) (i : Fin n) :
    maskX c e i = if i.val < c.numX e then 1 else 0 := by
  unfold maskX
  split_ifs with h1 h2 h2
  · rfl
  · rfl
  · rfl
  · exfalso
    rcases h with h | h
    · push Not at h1
      by_cases hp : ∃ e, c.numX e < n
      · exact absurd (h1 (Or.inr hp)) (by push Not; exact h)
      · push Not at hp
        have := hp e
        have := i.isLt
        omega
    · rw [h e] at h2
      exact h2 i.isLt

/-- Then each iteration aligns the points of the cloud alone with their neighbours: padding has no influence. -/
theorem step_padding (hok : Ok c) (h : (∃ e, c.numY e ≠ c.numX e) ∨ ∀ e, c.numX e = n) (Xt : Fin b → Matrix (Fin n) (Fin (k + 1)) ℝ) (e : Fin b) :
    stepT c Xt e = align c.svd c.estimateScale c.allowReflection c.eps (trunc (hok.pos e).2 (c.X e)) (trunc (hok.pos e).2 (nnPoints c Xt e))
      (c.numX e) none := by
  rw [stepT_eq]
  refine Eq.trans ?_ (align_padding (svd := c.svd) hok.eps.2 c.estimateScale c.allowReflection (c.X e) (nnPoints c Xt e) (hok.pos e).2
    (hok.pos e).1 none)
  have : maskX c e = fun i : Fin n => if i.val < c.numX e then (1 : ℝ) else 0 := funext fun i => mask_correct h e i
  rw [this]
  rfl

/-- Otherwise it has: in a batch of padded clouds in which the sizes of each pair agree, the padding rows take part as points at the origin
matched to the first target.  Here the single point 5 is to be aligned with the single point 7 (translation 2), in a batch padded to two
points; the result is the translation 9/2, which maps 5 to 19/2. -/
theorem icp_padding_witness (c : Cfg 2 2 2 0) (hok : Ok c) (hX : c.X 0 = !![5; 0]) (hY : c.Y 0 = !![7; 0]) (hnX : c.numX = ![1, 2])
    (hnY : c.numY = ![1, 2]) (hs : c.estimateScale = false) (ha : c.allowReflection = false) (init : Option (Fin 2 → Sim 0)) {maxIt : Nat}
    (hmax : 0 < maxIt) : ((icp c init maxIt).RTs 0).T 0 = 9 / 2 ∧ (icp c init maxIt).Xt 0 0 0 = 19 / 2 := by
  have hmask : ∀ i, maskX c 0 i = 1 := by
    intro i
    unfold maskX
    rw [if_neg]
    rintro ⟨-, e, he⟩
    rw [hnX, hnY] at he
    exact he rfl
  have hT : ∀ Xt, (stepT c Xt 0).T 0 = 9 / 2 ∧ (stepT c Xt 0).R 0 0 = 1 ∧ (stepT c Xt 0).s = 1 := by
    intro Xt
    have hadm := step_admissible hok Xt 0
    rw [ha] at hadm
    have hR := dim_one hadm.1
    have hs1 := hadm.2.2 hs
    refine ⟨?_, hR, hs1⟩
    have hnn : ∀ i, (c.nnIdx 0 (Xt 0) i).val = 0 := by
      intro i
      by_cases hi : i.val < c.numX 0
      · have := ((hok.nn 0 (Xt 0) i).1 hi).1
        rw [hnY] at this
        simpa using this
      · exact (hok.nn 0 (Xt 0) i).2 (by omega)
    have hpt : ∀ i, nnPoints c Xt 0 i 0 = 7 := by
      intro i
      unfold nnPoints
      rw [Matrix.of_apply, show c.nnIdx 0 (Xt 0) i = 0 from Fin.ext (hnn i), hY]
      rfl
    have e := align_T c.svd c.estimateScale c.allowReflection c.eps (c.X 0) (nnPoints c Xt 0) 2 (some (maskX c 0)) 0
    rw [← stepT_eq, hs1] at e
    rw [e, sum_one', hR]
    have h2 : max (2 : ℝ) c.eps = 2 := max_eq_left (by linarith [hok.eps.2])
    have hXe : c.X 0 0 0 = 5 ∧ c.X 0 1 0 = 0 := by rw [hX]; exact ⟨rfl, rfl⟩
    have s2 : (1 : ℝ) + 1 = 2 := by norm_num
    simp only [wmean, hmask, hpt, Fin.sum_univ_two, mul_one, s2, h2, hXe.1, hXe.2]
    norm_num
  obtain ⟨J, -, h1, h2, -, h4, h5⟩ := icp_spec c init maxIt
  have hJ : 0 < J := by
    rcases h5 with ⟨-, h, -⟩ | ⟨-, rfl, -⟩
    · exact h
    · exact hmax
  obtain ⟨t1, t2, t3⟩ := hT (seq c (start c init) (J - 1))
  refine ⟨by rw [h4 hJ]; exact t1, ?_⟩
  rw [(icp_consistent c init hmax).2 0, h4 hJ]
  unfold apply
  rw [Matrix.of_apply, Matrix.mul_apply, sum_one', t1, t2, t3, hX]
  norm_num

/-- Nearest neighbours exist, for non-empty clouds. -/
theorem nn_exists (X : Matrix (Fin n) (Fin (k + 1)) ℝ) (Y : Matrix (Fin m) (Fin (k + 1)) ℝ) (numX numY : Nat) (h : 0 < numY) (hm : numY ≤ m) :
    ∃ f : Fin n → Fin m, ∀ i, (i.val < numX → (f i).val < numY ∧ ∀ q : Fin m, q.val < numY →
      ∑ j, (X i j - Y (f i) j) ^ 2 ≤ ∑ j, (X i j - Y q j) ^ 2) ∧ (numX ≤ i.val → (f i).val = 0) := by
  have : ∀ i : Fin n, ∃ q : Fin m, (i.val < numX → q.val < numY ∧ ∀ q' : Fin m, q'.val < numY →
      ∑ j, (X i j - Y q j) ^ 2 ≤ ∑ j, (X i j - Y q' j) ^ 2) ∧ (numX ≤ i.val → q.val = 0) := by
    intro i
    by_cases hi : i.val < numX
    · obtain ⟨q, hq, hmin⟩ := Finset.exists_min_image (Finset.univ.filter fun q : Fin m => q.val < numY)
        (fun q => ∑ j, (X i j - Y q j) ^ 2) ⟨⟨0, by omega⟩, by simpa using h⟩
      exact ⟨q, fun _ => ⟨by simpa using hq, fun q' hq' => hmin q' (by simpa using hq')⟩, fun h' => by omega⟩
    · exact ⟨⟨0, by omega⟩, fun h' => absurd h' hi, fun _ => rfl⟩
  choose f hf using this
  exact ⟨f, hf⟩

/-- The assumptions can be met for all clouds, without estimation of the scale. -/
theorem ok_exists (X : Fin b → Matrix (Fin n) (Fin (k + 1)) ℝ) (Y : Fin b → Matrix (Fin m) (Fin (k + 1)) ℝ) (numX numY : Fin b → Nat)
    (hX : ∀ e, 0 < numX e ∧ numX e ≤ n) (hY : ∀ e, 0 < numY e ∧ numY e ≤ m) (ar : Bool) (thr : ℝ) :
    ∃ c : Cfg b n m k, Ok c ∧ c.X = X ∧ c.Y = Y ∧ c.numX = numX ∧ c.numY = numY ∧ c.estimateScale = false ∧ c.allowReflection = ar ∧
      c.thr = thr ∧ c.eps = 1 / 1000000000 := by
  obtain ⟨svd, hsvd⟩ := svdOk_exists (k := k)
  have : ∀ (e : Fin b) (Xt : Matrix (Fin n) (Fin (k + 1)) ℝ), ∃ f : Fin n → Fin m, ∀ i, (i.val < numX e → (f i).val < numY e ∧
      ∀ q : Fin m, q.val < numY e → ∑ j, (Xt i j - Y e (f i) j) ^ 2 ≤ ∑ j, (Xt i j - Y e q j) ^ 2) ∧ (numX e ≤ i.val → (f i).val = 0) :=
    fun e Xt => nn_exists Xt (Y e) (numX e) (numY e) (hY e).1 (hY e).2
  choose f hf using this
  refine ⟨⟨svd, f, X, Y, numX, numY, false, ar, thr, 1 / 1000000000⟩, ⟨hsvd, fun e Xt i => hf e Xt i, ?_, hX, ?_⟩,
    rfl, rfl, rfl, rfl, rfl, rfl, rfl, rfl⟩
  · norm_num
  · intro h; cases h

/-- A cloud registered with itself, three points in the plane. -/
example : ∃ c : Cfg 1 3 3 1, Ok c ∧ (icp c none 100).converged = false := by
  obtain ⟨c, h1, h2, h3, h4, h5, h6, h7, h8, -⟩ := ok_exists (b := 1) (n := 3) (m := 3) (k := 1) ![!![0, 0; 1, 0; 0, 2]] ![!![0, 0; 1, 0; 0, 2]]
    ![3] ![3] (by intro e; fin_cases e; simp) (by intro e; fin_cases e; simp) false (1 / 1000000)
  refine ⟨c, h1, (icp_self h1 (by rw [h8]; norm_num) ?_ ?_ 0 100).1⟩
  · intro e i
    refine ⟨i, ?_, by rw [h2, h3]⟩
    rw [h5, show e = 0 from Fin.fin_one_eq_zero e]
    exact i.isLt
  · intro e
    rw [h4, show e = 0 from Fin.fin_one_eq_zero e]
    rfl

/-- The padded batch of the witness exists, and its result is wrong. -/
example : ∃ c : Cfg 2 2 2 0, Ok c ∧ ((icp c none 100).RTs 0).T 0 = 9 / 2 := by
  obtain ⟨c, h1, h2, h3, h4, h5, h6, h7, -⟩ := ok_exists (b := 2) (n := 2) (m := 2) (k := 0) ![!![5; 0], !![1; 2]] ![!![7; 0], !![1; 2]]
    ![1, 2] ![1, 2] (by intro e; fin_cases e <;> simp) (by intro e; fin_cases e <;> simp) false (1 / 1000000)
  exact ⟨c, h1, (icp_padding_witness c h1 (by rw [h2]; rfl) (by rw [h3]; rfl) h4 h5 h6 h7 none (by norm_num)).1⟩

end

end P3D.Icp
