/-
Model of the perspective-n-points solver: `ops/perspective_n_points.py`.

One element of the batch (the elements do not interact, except in the text of a warning), `n` points.  Numbers are real.
`torch.linalg.eigh`, `torch.svd` and `torch.pinverse` are any functions with the documented properties (`EigOk`,
`Align.SvdOk`, `PinvOk`).  Not modelled: rounding, gradients, the warning about points behind the camera, fewer
than four points (where the code raises).
-/
import Verif.Align
import Verif.SvdExists
import Verif.Splatter
import Mathlib.Analysis.Matrix.Spectrum
import Mathlib.Data.Fin.Tuple.Sort

set_option linter.unusedSectionVars false

namespace P3D.PnP

open Matrix P3D.Align

noncomputable section

/-- Points. -/
abbrev Pts (n d : Nat) := Matrix (Fin n) (Fin d) ℝ

/-- Rows and columns of the 12 unknowns: control point and coordinate. -/
abbrev CP := Fin 4 × Fin 3

variable {n : Nat}

/-- `_define_control_points`, perspective_n_points.py:32-46. -/
def controlPts (eps : ℝ) (x : Pts n 3) (w : Option (Fin n → ℝ)) : Pts 4 3 :=
  of fun a j => (if a.val = j.val then 1 else 0) + wmean (k := 2) eps x w j

/-- `F.pad (x, (0, 1), value = 1.0)`. -/
def homog {m : Nat} (x : Pts m 3) : Pts m 4 := of fun i => ![x i 0, x i 1, x i 2, 1]

/-- `_compute_alphas`, perspective_n_points.py:49-58. -/
def alphas (x : Pts n 3) (c : Pts 4 3) : Pts n 4 := homog x * (homog c)⁻¹

/-- `_build_M`, perspective_n_points.py:61-95; the rows come in pairs. -/
def buildM (y : Pts n 2) (al : Pts n 4) (w : Option (Fin n → ℝ)) : Matrix (Fin n × Fin 2) CP ℝ :=
  of fun r q => (al r.1 q.1 * weightOf w r.1) *
    (if r.2 = 0 then ![1, 0, -y r.1 0] q.2 else ![0, 1, -y r.1 1] q.2)

/-- The result of `torch.linalg.eigh`. -/
abbrev Eigh := Matrix CP CP ℝ → (Fin 12 → ℝ) × Matrix CP (Fin 12) ℝ

/-- `_null_space` with `kernel_dim = 4`, perspective_n_points.py:98-111. -/
def nullSpace (eigh : Eigh) (M : Matrix (Fin n × Fin 2) CP ℝ) : Fin 4 → Pts 4 3 :=
  fun k => of fun a j => (eigh (Mᵀ * M)).2 (a, j) (Fin.castLE (by norm_num) k)

/-- A candidate, perspective_n_points.py:24-29. -/
structure Solution (n : Nat) where
  xCam : Pts n 3
  R : Matrix (Fin 3) (Fin 3) ℝ
  T : Fin 3 → ℝ
  err2d : ℝ
  err3d : ℝ

/-- `wmean` of one number per point. -/
def wmean1 (eps : ℝ) (f : Fin n → ℝ) (w : Option (Fin n → ℝ)) : ℝ := wmean (k := 0) eps (of fun i _ => f i) w 0

/-- The distance of the reprojection of a point, perspective_n_points.py:124-125. -/
def reprojDist (eps : ℝ) (X : Fin 3 → ℝ) (y : Fin 2 → ℝ) : ℝ :=
  √((y 0 - X 0 / max (X 2) eps) ^ 2 + (y 1 - X 1 / max (X 2) eps) ^ 2)

/-- `_reproj_error`, perspective_n_points.py:114-126. -/
def reprojError (eps : ℝ) (X : Pts n 3) (y : Pts n 2) (w : Option (Fin n → ℝ)) : ℝ :=
  wmean1 eps (fun i => reprojDist eps (X i) (y i)) w

/-- `_algebraic_error`, perspective_n_points.py:129-140. -/
def algError (eps : ℝ) (X Z : Pts n 3) (w : Option (Fin n → ℝ)) : ℝ :=
  wmean1 eps (fun i => ∑ j, (X i j - Z i j) ^ 2) w

/-- `torch.svd`. -/
abbrev Svd := Matrix (Fin 3) (Fin 3) ℝ → Matrix (Fin 3) (Fin 3) ℝ × (Fin 3 → ℝ) × Matrix (Fin 3) (Fin 3) ℝ

/-- `_compute_norm_sign_scaling_factor`, perspective_n_points.py:143-174. -/
def candidate (svd : Svd) (eps : ℝ) (c : Pts 4 3) (al : Pts n 4) (x : Pts n 3) (y : Pts n 2) (w : Option (Fin n → ℝ)) :
    Solution n :=
  let xc := al * c
  let xc := (if wmean1 eps (fun i => xc i 2) w < 0 then -1 else (1 : ℝ)) • xc
  let t := align (k := 2) svd true false eps x xc n w
  let s := max t.s eps
  let xc : Pts n 3 := of fun i j => xc i j / s
  let T : Fin 3 → ℝ := fun j => t.T j / s
  let rot : Pts n 3 := of fun i j => (x * t.R) i j + T j
  ⟨xc, t.R, T, reprojError eps rot y w, algError eps rot xc w⟩

/-- `torch.combinations` of four. -/
def pair : Fin 6 → Fin 4 × Fin 4 := ![(0, 1), (0, 2), (0, 3), (1, 2), (1, 3), (2, 3)]

/-- The distances are those of all pairs of control points, each once. -/
theorem pair_spec (a b : Fin 4) (h : a < b) : ∃ p, pair p = (a, b) ∧ ∀ q, pair q = (a, b) → q = p := by
  revert a b
  decide +kernel

/-- `_gen_pairs` with the default reducer, perspective_n_points.py:177-191: squared distances of the control points. -/
def dists (c : Pts 4 3) : Fin 6 → ℝ := fun p => ∑ j, (c (pair p).1 j - c (pair p).2 j) ^ 2

/-- `_kernel_vec_distances`, perspective_n_points.py:194-216. -/
def kernelDists (v : Fin 4 → Pts 4 3) : Matrix (Fin 6) (Fin 10) ℝ :=
  of fun p =>
    let dv := fun (k : Fin 4) (j : Fin 3) => v k (pair p).1 j - v k (pair p).2 j
    let ii := fun k => ∑ j, dv k j ^ 2
    let ij := fun k l => 2 * ∑ j, dv k j * dv l j
    ![ii 0, ii 1, ii 2, ii 3, ij 0 1, ij 0 2, ij 0 3, ij 1 2, ij 1 3, ij 2 3]

/-- `torch.pinverse`. -/
abbrev Pinv := (m : Nat) → Matrix (Fin 6) (Fin m) ℝ → Matrix (Fin m) (Fin 6) ℝ

/-- `_solve_lstsq_subcols`, perspective_n_points.py:219-230. -/
def lstsq (pinv : Pinv) {m : Nat} (K : Matrix (Fin 6) (Fin 10) ℝ) (d : Fin 6 → ℝ) (cols : Fin m → Fin 10) : Fin m → ℝ :=
  pinv m (K.submatrix id cols) *ᵥ d

/-- `_binary_sign`, perspective_n_points.py:233-234. -/
def bsign (t : ℝ) : ℝ := if 0 ≤ t then 1 else -1

/-- `_find_null_space_coords_1`, perspective_n_points.py:237-253, from the solution of the linear system. -/
def coords1 (eps : ℝ) (b : Fin 4 → ℝ) : Fin 4 → ℝ :=
  fun k => b k * bsign (b 0) / max (√(b 0 * bsign (b 0))) eps

/-- The second coordinate of the cases 2 and 3. -/
def coordB (b0 b2 : ℝ) : ℝ := √|b2| * (if (0 ≤ b0) = (0 ≤ b2) then 1 else 0)

/-- `_find_null_space_coords_2`, perspective_n_points.py:256-277. -/
def coords2 (b : Fin 3 → ℝ) : Fin 4 → ℝ := ![√|b 0| * bsign (b 1), coordB (b 0) (b 2), 0, 0]

/-- `_find_null_space_coords_3`, perspective_n_points.py:280-304. -/
def coords3 (eps : ℝ) (b : Fin 5 → ℝ) : Fin 4 → ℝ :=
  ![√|b 0| * bsign (b 1), coordB (b 0) (b 2), b 3 / max (√|b 0| * bsign (b 1)) eps, 0]

/-- `torch.matmul (kernel, beta)`. -/
def combine (v : Fin 4 → Pts 4 3) (b : Fin 4 → ℝ) : Pts 4 3 := of fun a j => ∑ k, v k a j * b k

/-- `c_cam_variants`, perspective_n_points.py:372-388. -/
def variants (pinv : Pinv) (eps : ℝ) (skip : Bool) (v : Fin 4 → Pts 4 3) (d : Fin 6 → ℝ) : List (Pts 4 3) :=
  v 0 :: if skip then [] else [
    combine v (coords1 eps (lstsq pinv (kernelDists v) d ![0, 4, 5, 6])),
    combine v (coords2 (lstsq pinv (kernelDists v) d ![0, 4, 1])),
    combine v (coords3 eps (lstsq pinv (kernelDists v) d ![0, 4, 1, 5, 7]))]

/-- `efficient_pnp`, perspective_n_points.py:307-412; `eps` is `1e-9` everywhere. -/
def efficientPnp (eigh : Eigh) (svd : Svd) (pinv : Pinv) (eps : ℝ) (x : Pts n 3) (y : Pts n 2) (w : Option (Fin n → ℝ))
    (skip : Bool) : Solution n :=
  let c := controlPts eps x w
  let al := alphas x c
  let v := nullSpace eigh (buildM y al w)
  let sols := (variants pinv eps skip v (dists c)).map fun c => candidate svd eps c al x y w
  sols.getD (Splatter.argmin (fun k => (sols.map fun s => s.err2d).getD k 0) (sols.length - 1))
    (candidate svd eps (v 0) al x y w)

/-! ### What is assumed of the linear algebra -/

/-- An eigenvalue decomposition of symmetric matrices, eigenvalues ascending. -/
def EigOk (eigh : Eigh) : Prop := ∀ A : Matrix CP CP ℝ, Aᵀ = A →
  ((eigh A).2)ᵀ * (eigh A).2 = 1 ∧ A * (eigh A).2 = (eigh A).2 * diagonal (eigh A).1 ∧ Monotone (eigh A).1

/-- A left inverse of matrices with independent columns. -/
def PinvOk (pinv : Pinv) : Prop := ∀ (m : Nat) (A : Matrix (Fin 6) (Fin m) ℝ),
  (∀ v, A *ᵥ v = 0 → v = 0) → pinv m A * A = 1

/-! ### Barycentric coordinates -/

theorem alphas_eq (eps : ℝ) (x : Pts n 3) (w : Option (Fin n → ℝ)) (i : Fin n) :
    alphas x (controlPts eps x w) i =
      ![x i 0 - wmean (k := 2) eps x w 0, x i 1 - wmean (k := 2) eps x w 1, x i 2 - wmean (k := 2) eps x w 2,
        1 - (x i 0 - wmean (k := 2) eps x w 0) - (x i 1 - wmean (k := 2) eps x w 1)
          - (x i 2 - wmean (k := 2) eps x w 2)] := by
  set m := wmean (k := 2) eps x w
  have hdet : (homog (controlPts eps x w)).det = 1 := by
    rw [Matrix.det_succ_row_zero]
    simp [Fin.sum_univ_succ, homog, controlPts, Matrix.det_succ_row_zero, Fin.succAbove]
    ring
  have hfac : homog x = (of fun i => ![x i 0 - m 0, x i 1 - m 1, x i 2 - m 2,
      1 - (x i 0 - m 0) - (x i 1 - m 1) - (x i 2 - m 2)] : Pts n 4) * homog (controlPts eps x w) := by
    ext i j
    fin_cases j <;> simp [Matrix.mul_apply, Fin.sum_univ_succ, homog, controlPts, m] <;> ring
  rw [alphas, hfac, Matrix.mul_nonsing_inv_cancel_right _ _ (by rw [hdet]; exact isUnit_one)]
  rfl

/-- **Barycentric coordinates**: they sum up to one and give back the points from the control points; -/
theorem alphas_spec (eps : ℝ) (x : Pts n 3) (w : Option (Fin n → ℝ)) :
    (∀ i, ∑ a, alphas x (controlPts eps x w) i a = 1) ∧ alphas x (controlPts eps x w) * controlPts eps x w = x := by
  refine ⟨fun i => ?_, ?_⟩
  · rw [alphas_eq]; simp [Fin.sum_univ_succ]
  · ext i j
    rw [Matrix.mul_apply]
    simp only [alphas_eq]
    fin_cases j <;> simp [Fin.sum_univ_succ, controlPts] <;> ring

/-- the camera coordinates of points. -/
def camPts {m : Nat} (x : Pts m 3) (R : Matrix (Fin 3) (Fin 3) ℝ) (T : Fin 3 → ℝ) : Pts m 3 := of fun i j => (x * R) i j + T j

/-- and commute with affine maps. -/
theorem alphas_cam (eps : ℝ) (x : Pts n 3) (w : Option (Fin n → ℝ)) (R : Matrix (Fin 3) (Fin 3) ℝ) (T : Fin 3 → ℝ) :
    alphas x (controlPts eps x w) * camPts (controlPts eps x w) R T = camPts x R T := by
  obtain ⟨h1, h2⟩ := alphas_spec eps x w
  ext i j
  have : (alphas x (controlPts eps x w) * (controlPts eps x w * R)) i j = (x * R) i j := by
    rw [← Matrix.mul_assoc, h2]
  rw [Matrix.mul_apply] at this ⊢
  simp only [camPts, of_apply, mul_add, Finset.sum_add_distrib, ← Finset.sum_mul, h1 i, one_mul]
  rw [this]

/-! ### The linear system -/

/-- Flattening of control points. -/
def flat (c : Pts 4 3) : CP → ℝ := fun q => c q.1 q.2

/-- **The reprojection equations**: control points solve the system exactly if every point with non-zero weight satisfies
`x = u z` and `y = v z`. -/
theorem buildM_zero (y : Pts n 2) (al : Pts n 4) (w : Option (Fin n → ℝ)) (c : Pts 4 3) :
    buildM y al w *ᵥ flat c = 0 ↔ ∀ i, weightOf w i ≠ 0 →
      (al * c) i 0 = y i 0 * (al * c) i 2 ∧ (al * c) i 1 = y i 1 * (al * c) i 2 := by
  have key : ∀ i, (buildM y al w *ᵥ flat c) (i, 0) = weightOf w i * ((al * c) i 0 - y i 0 * (al * c) i 2) ∧
      (buildM y al w *ᵥ flat c) (i, 1) = weightOf w i * ((al * c) i 1 - y i 1 * (al * c) i 2) := by
    intro i
    simp only [Matrix.mulVec, dotProduct, Matrix.mul_apply, buildM, of_apply, flat, Fintype.sum_prod_type]
    constructor <;> simp [Fin.sum_univ_succ] <;> ring
  constructor
  · intro h i hi
    have h1 := congrFun h (i, 0)
    have h2 := congrFun h (i, 1)
    rw [(key i).1] at h1
    rw [(key i).2] at h2
    have h1 := (mul_eq_zero.1 h1).resolve_left hi
    have h2 := (mul_eq_zero.1 h2).resolve_left hi
    exact ⟨by linarith, by linarith⟩
  · intro h
    funext ⟨i, r⟩
    by_cases hi : weightOf w i = 0
    · fin_cases r
      · exact (key i).1.trans (by rw [hi, zero_mul]; rfl)
      · exact (key i).2.trans (by rw [hi, zero_mul]; rfl)
    · obtain ⟨h1, h2⟩ := h i hi
      fin_cases r
      · exact (key i).1.trans (by rw [h1, sub_self, mul_zero]; rfl)
      · exact (key i).2.trans (by rw [h2, sub_self, mul_zero]; rfl)

/-- If the system has a non-zero solution, the first vectors of `nullSpace` are solutions, as many as the dimension:
here for one. -/
theorem nullSpace_zero {eigh : Eigh} (he : EigOk eigh) (M : Matrix (Fin n × Fin 2) CP ℝ) (c : Pts 4 3) (hc : flat c ≠ 0)
    (hM : M *ᵥ flat c = 0) : M *ᵥ flat (nullSpace eigh M 0) = 0 ∧ ∑ q, flat (nullSpace eigh M 0) q ^ 2 = 1 := by
  obtain ⟨h1, h2, h3⟩ := he (Mᵀ * M) (by rw [Matrix.transpose_mul, Matrix.transpose_transpose])
  set V := (eigh (Mᵀ * M)).2 with hV
  set s := (eigh (Mᵀ * M)).1 with hs
  have hfl : flat (nullSpace eigh M 0) = V.col 0 := rfl
  have hsq : ∀ k, (M *ᵥ V.col k) ⬝ᵥ (M *ᵥ V.col k) = s k := by
    intro k
    have : (M *ᵥ V.col k) ⬝ᵥ (M *ᵥ V.col k) = (Vᵀ * (Mᵀ * M * V)) k k := by
      rw [Matrix.mul_assoc, ← Matrix.mul_assoc Vᵀ, ← Matrix.transpose_mul]
      rfl
    rw [this, h2, ← Matrix.mul_assoc, h1, Matrix.one_mul, diagonal_apply_eq]
  have hcard : Fintype.card CP = Fintype.card (Fin 12) := by simp
  have hVV : V * Vᵀ = 1 := (Matrix.mul_eq_one_comm_of_card_eq _ _ _ hcard.symm).1 h1
  have hd : diagonal s *ᵥ (Vᵀ *ᵥ flat c) = 0 := by
    have e : (Mᵀ * M) *ᵥ flat c = 0 := by rw [← Matrix.mulVec_mulVec, hM, Matrix.mulVec_zero]
    have e2 : Vᵀ * (Mᵀ * M) = diagonal s * Vᵀ := by
      calc Vᵀ * (Mᵀ * M) = Vᵀ * (Mᵀ * M) * (V * Vᵀ) := by rw [hVV, Matrix.mul_one]
        _ = Vᵀ * (Mᵀ * M * V) * Vᵀ := by simp only [Matrix.mul_assoc]
        _ = (Vᵀ * V) * diagonal s * Vᵀ := by rw [h2]; simp only [Matrix.mul_assoc]
        _ = diagonal s * Vᵀ := by rw [h1, Matrix.one_mul]
    rw [Matrix.mulVec_mulVec, ← e2, ← Matrix.mulVec_mulVec, e, Matrix.mulVec_zero]
  have hne : Vᵀ *ᵥ flat c ≠ 0 := by
    intro h0
    apply hc
    have : (V * Vᵀ) *ᵥ flat c = 0 := by rw [← Matrix.mulVec_mulVec, h0, Matrix.mulVec_zero]
    rwa [hVV, Matrix.one_mulVec] at this
  obtain ⟨k, hk⟩ := Function.ne_iff.1 hne
  have hsk : s k = 0 := by
    have := congrFun hd k
    rw [Matrix.mulVec_diagonal] at this
    exact (mul_eq_zero.1 this).resolve_right hk
  have h0 : s 0 = 0 := by
    have hle : s 0 ≤ s k := h3 (Fin.zero_le _)
    have hge : 0 ≤ s 0 := by rw [← hsq 0]; exact Finset.sum_nonneg fun i _ => mul_self_nonneg _
    linarith
  refine ⟨?_, ?_⟩
  · rw [hfl]
    have := hsq 0
    rw [h0] at this
    exact dotProduct_self_eq_zero.1 this
  · rw [hfl]
    have := congrFun (congrFun h1 0) 0
    rw [Matrix.mul_apply, Matrix.one_apply_eq] at this
    rw [← this]
    exact Finset.sum_congr rfl fun q _ => by rw [pow_two]; rfl

/-! ### A candidate proportional to the true control points -/

/-- The points with non-zero weight are not all in one plane. -/
def Spanning (x : Pts n 3) (w : Option (Fin n → ℝ)) : Prop :=
  ∀ (d : Fin 3 → ℝ) (e : ℝ), (∀ i, weightOf w i ≠ 0 → ∑ l, x i l * d l + e = 0) → d = 0 ∧ e = 0

/-- The given data come from a camera: `R` a rotation, all points in front of it, `y` their projections. -/
structure Exact (eps : ℝ) (x : Pts n 3) (y : Pts n 2) (w : Option (Fin n → ℝ)) (R : Matrix (Fin 3) (Fin 3) ℝ)
    (T : Fin 3 → ℝ) : Prop where
  rot : Valid (k := 2) false R
  front : ∀ i, eps ≤ camPts x R T i 2
  proj : ∀ i, y i 0 = camPts x R T i 0 / camPts x R T i 2 ∧ y i 1 = camPts x R T i 1 / camPts x R T i 2
  mean : MeanOk eps w
  weights : ∀ i, 0 ≤ weightOf w i
  variance : eps ≤ variance (k := 2) eps x n w

theorem wmean1_mul {eps : ℝ} (he : 0 < eps) (f : Fin n → ℝ) {w : Option (Fin n → ℝ)} (hm : MeanOk eps w) :
    (∑ i, weightOf w i) * wmean1 eps f w = ∑ i, weightOf w i * f i :=
  wmean_total (k := 0) he hm _ 0

theorem wmean1_pos {eps : ℝ} (he : 0 < eps) (f : Fin n → ℝ) {w : Option (Fin n → ℝ)} (hm : MeanOk eps w)
    (hw : ∀ i, 0 ≤ weightOf w i) (hf : ∀ i, 0 < f i) : 0 < wmean1 eps f w := by
  have h1 := total_pos he hm
  have h2 := wmean1_mul he f hm
  have h3 : 0 < ∑ i, weightOf w i * f i := by
    obtain ⟨i, -, hi⟩ := Finset.exists_lt_of_sum_lt (f := fun _ : Fin n => (0 : ℝ)) (by simpa using h1)
    exact Finset.sum_pos' (fun i _ => mul_nonneg (hw i) (hf i).le) ⟨i, Finset.mem_univ _, mul_pos hi (hf i)⟩
  rw [← h2] at h3
  exact (pos_iff_pos_of_mul_pos h3).1 h1

theorem wmean1_nonneg {eps : ℝ} (he : 0 < eps) (f : Fin n → ℝ) (w : Option (Fin n → ℝ))
    (hw : ∀ i, 0 ≤ weightOf w i) (hf : ∀ i, 0 ≤ f i) : 0 ≤ wmean1 eps f w := by
  cases w with
  | none => exact div_nonneg (Finset.sum_nonneg fun i _ => hf i) (Nat.cast_nonneg _)
  | some w =>
    exact div_nonneg (Finset.sum_nonneg fun i _ => mul_nonneg (hf i) (hw i)) (he.le.trans (le_max_right _ _))

theorem wmean1_smul (eps t : ℝ) (f : Fin n → ℝ) (w : Option (Fin n → ℝ)) :
    wmean1 eps (fun i => t * f i) w = t * wmean1 eps f w := by
  cases w with
  | none => simp only [wmean1, wmean, of_apply]; rw [← Finset.mul_sum, mul_div_assoc]
  | some w => simp only [wmean1, wmean, of_apply, mul_assoc]; rw [← Finset.mul_sum, mul_div_assoc]

/-- **Zero error** means that all points with non-zero weight are reprojected exactly. -/
theorem reprojError_zero {eps : ℝ} (he : 0 < eps) (X : Pts n 3) (y : Pts n 2) {w : Option (Fin n → ℝ)}
    (hm : MeanOk eps w) (hw : ∀ i, 0 ≤ weightOf w i) :
    reprojError eps X y w = 0 ↔ ∀ i, weightOf w i ≠ 0 →
      y i 0 = X i 0 / max (X i 2) eps ∧ y i 1 = X i 1 / max (X i 2) eps := by
  have h1 := total_pos he hm
  have h2 := wmean1_mul he (fun i => reprojDist eps (X i) (y i)) hm
  have hd : ∀ i, 0 ≤ reprojDist eps (X i) (y i) := fun i => Real.sqrt_nonneg _
  have hz : ∀ i, reprojDist eps (X i) (y i) = 0 ↔
      y i 0 = X i 0 / max (X i 2) eps ∧ y i 1 = X i 1 / max (X i 2) eps := by
    intro i
    rw [reprojDist, Real.sqrt_eq_zero (by positivity)]
    constructor
    · intro h
      have a := sq_nonneg (y i 0 - X i 0 / max (X i 2) eps)
      have b := sq_nonneg (y i 1 - X i 1 / max (X i 2) eps)
      exact ⟨sub_eq_zero.1 (pow_eq_zero_iff two_ne_zero |>.1 (by linarith)),
        sub_eq_zero.1 (pow_eq_zero_iff two_ne_zero |>.1 (by linarith))⟩
    · rintro ⟨a, b⟩
      rw [← a, ← b]; simp
  unfold reprojError
  constructor
  · intro h i hi
    rw [h, mul_zero] at h2
    have := (Finset.sum_eq_zero_iff_of_nonneg fun i _ => mul_nonneg (hw i) (hd i)).1 h2.symm i (Finset.mem_univ _)
    exact (hz i).1 ((mul_eq_zero.1 this).resolve_left hi)
  · intro h
    have : ∑ i, weightOf w i * reprojDist eps (X i) (y i) = 0 := Finset.sum_eq_zero fun i _ => by
      by_cases hi : weightOf w i = 0
      · rw [hi, zero_mul]
      · rw [(hz i).2 (h i hi), mul_zero]
    rw [this] at h2
    exact (mul_eq_zero.1 h2).resolve_left h1.ne'

theorem candidate_exact {svd : Svd} (hs : SvdOk svd) {eps : ℝ} (he : 0 < eps) {x : Pts n 3} {y : Pts n 2}
    {w : Option (Fin n → ℝ)} {R : Matrix (Fin 3) (Fin 3) ℝ} {T : Fin 3 → ℝ} (h : Exact eps x y w R T)
    (hsp : Spanning x w) (t : ℝ) (ht : eps ≤ |t|) :
    candidate svd eps (t • camPts (controlPts eps x w) R T) (alphas x (controlPts eps x w)) x y w =
      ⟨camPts x R T, R, T, 0, 0⟩ := by
  have ht0 : t ≠ 0 := by intro h0; rw [h0, abs_zero] at ht; linarith
  have hX : alphas x (controlPts eps x w) * t • camPts (controlPts eps x w) R T = t • camPts x R T := by
    rw [Matrix.mul_smul, alphas_cam]
  have hz : 0 < wmean1 eps (fun i => camPts x R T i 2) w :=
    wmean1_pos he _ h.mean h.weights fun i => he.trans_le (h.front i)
  have hsign : (if wmean1 eps (fun i => (t • camPts x R T) i 2) w < 0 then -1 else (1 : ℝ)) • t • camPts x R T =
      |t| • camPts x R T := by
    have : wmean1 eps (fun i => (t • camPts x R T) i 2) w = t * wmean1 eps (fun i => camPts x R T i 2) w :=
      wmean1_smul eps t _ w
    rw [this, smul_smul]
    congr 1
    rcases lt_or_gt_of_ne ht0 with hn | hp
    · rw [if_pos (mul_neg_of_neg_of_pos hn hz), abs_of_neg hn]; ring
    · rw [if_neg (not_lt.2 (mul_pos hp hz).le), abs_of_pos hp]; ring
  have htp : 0 < |t| := abs_pos.2 ht0
  set A := align (k := 2) svd true false eps x (|t| • camPts x R T) n w with hA
  have hex : ∀ i, weightOf w i ≠ 0 → ∀ j, apply x A i j = (|t| • camPts x R T) i j := by
    intro i hi j
    refine align_exact (k := 2) hs true false he x _ n h.mean (fun _ => h.variance) ⟨R, |t| • T, |t|⟩
      ⟨h.rot, Or.inl htp.le, by simp⟩ (fun i _ j => ?_) i hi j
    simp only [camPts, Matrix.smul_apply, of_apply, smul_eq_mul, Pi.smul_apply, Matrix.mul_apply]
    ring
  have hadm := align_admissible (k := 2) hs true false he x (|t| • camPts x R T) n w
  rw [← hA] at hadm
  have hD : ∀ l j, A.s * A.R l j = |t| * R l j := by
    intro l j
    have := (hsp (fun l => A.s * A.R l j - |t| * R l j) (A.T j - |t| * T j) fun i hi => by
      have e := hex i hi j
      simp only [apply, camPts, Matrix.smul_apply, of_apply, smul_eq_mul, Matrix.mul_apply] at e
      have e2 : ∑ l, x i l * (A.s * A.R l j - |t| * R l j) = A.s * ∑ l, x i l * A.R l j - |t| * ∑ l, x i l * R l j := by
        rw [Finset.mul_sum, Finset.mul_sum, ← Finset.sum_sub_distrib]
        exact Finset.sum_congr rfl fun l _ => by ring
      rw [e2]; linarith).1
    have := congrFun this l
    simp only [Pi.zero_apply] at this
    linarith
  have hT : ∀ j, A.T j = |t| * T j := by
    intro j
    have := (hsp (fun l => A.s * A.R l j - |t| * R l j) (A.T j - |t| * T j) fun i hi => by
      have e := hex i hi j
      simp only [apply, camPts, Matrix.smul_apply, of_apply, smul_eq_mul, Matrix.mul_apply] at e
      have e2 : ∑ l, x i l * (A.s * A.R l j - |t| * R l j) = A.s * ∑ l, x i l * A.R l j - |t| * ∑ l, x i l * R l j := by
        rw [Finset.mul_sum, Finset.mul_sum, ← Finset.sum_sub_distrib]
        exact Finset.sum_congr rfl fun l _ => by ring
      rw [e2]; linarith).2
    linarith
  have hss : A.s = |t| := by
    have e : A.s • A.R = |t| • R := by ext l j; simpa using hD l j
    have e := congrArg Matrix.det e
    rw [Matrix.det_smul, Matrix.det_smul, hadm.1.2 rfl, h.rot.2 rfl, mul_one, mul_one, Fintype.card_fin] at e
    exact (Odd.strictMono_pow (n := 3) (by decide)).injective e
  have hR : A.R = R := by
    ext l j
    have := hD l j
    rw [hss] at this
    exact mul_left_cancel₀ htp.ne' this
  have hmax : max A.s eps = |t| := by rw [hss]; exact max_eq_left ht
  have hxc : (of fun i j => (|t| • camPts x R T) i j / |t| : Pts n 3) = camPts x R T := by
    ext i j
    simp only [of_apply, Matrix.smul_apply, smul_eq_mul]
    field_simp
  have hTT : (fun j => A.T j / |t|) = T := by
    funext j
    rw [hT j]
    field_simp
  unfold candidate
  have hrot : (of fun i j => (x * R) i j + A.T j / |t| : Pts n 3) = camPts x R T := by
    ext i j
    simp only [of_apply, camPts]
    rw [hT j]
    field_simp
  simp only [hX, hsign, ← hA, hmax, hxc, hTT, hR]
  erw [hrot]
  congr 1
  · rw [reprojError_zero he _ _ h.mean h.weights]
    intro i _
    rw [max_eq_left (h.front i)]
    exact h.proj i
  · have : (fun i => ∑ j, (camPts x R T i j - camPts x R T i j) ^ 2) = fun _ => (0 : ℝ) * 0 := by funext i; simp
    rw [algError, this, wmean1_smul, zero_mul]

/-! ### The result -/

/-- The control points in camera coordinates solve the equations and are not all zero. -/
theorem true_kernel {eps : ℝ} (he : 0 < eps) {x : Pts n 3} {y : Pts n 2} {w : Option (Fin n → ℝ)}
    {R : Matrix (Fin 3) (Fin 3) ℝ} {T : Fin 3 → ℝ} (h : Exact eps x y w R T) :
    buildM y (alphas x (controlPts eps x w)) w *ᵥ flat (camPts (controlPts eps x w) R T) = 0 ∧
    flat (camPts (controlPts eps x w) R T) ≠ 0 := by
  refine ⟨?_, fun h0 => ?_⟩
  · rw [buildM_zero, alphas_cam]
    intro i _
    have hz : camPts x R T i 2 ≠ 0 := (he.trans_le (h.front i)).ne'
    obtain ⟨h1, h2⟩ := h.proj i
    exact ⟨by rw [h1, div_mul_cancel₀ _ hz], by rw [h2, div_mul_cancel₀ _ hz]⟩
  · have hc : camPts (controlPts eps x w) R T = 0 := by
      ext a j; exact congrFun h0 (a, j)
    have hX := alphas_cam eps x w R T
    rw [hc, Matrix.mul_zero] at hX
    have hz : 0 < wmean1 eps (fun i => camPts x R T i 2) w :=
      wmean1_pos he _ h.mean h.weights fun i => he.trans_le (h.front i)
    rw [← hX] at hz
    have : (fun i : Fin n => (0 : Pts n 3) i 2) = fun _ => (0 : ℝ) * 0 := by funext i; simp
    rw [this, wmean1_smul, zero_mul] at hz
    exact lt_irrefl _ hz

/-- If the system has, up to multiples, one solution, the points are not all in one plane. -/
theorem spanning_of_kernel {eps : ℝ} {x : Pts n 3} {y : Pts n 2} {w : Option (Fin n → ℝ)} (c0 : Pts 4 3)
    (hk : ∀ c, buildM y (alphas x (controlPts eps x w)) w *ᵥ flat c = 0 → ∃ t : ℝ, c = t • c0) : Spanning x w := by
  intro d e h
  set C := controlPts eps x w with hC
  -- the values of the affine function at the control points
  have hker : ∀ j0 : Fin 3, ∃ t : ℝ, (of fun a j => (∑ l, C a l * d l + e) * (if j = j0 then 1 else 0) : Pts 4 3) = t • c0 := by
    intro j0
    refine hk _ ((buildM_zero _ _ _ _).2 fun i hi => ?_)
    obtain ⟨h1, h2⟩ := alphas_spec eps x w
    rw [← hC] at h1 h2
    have hz : ∀ j, (alphas x C * (of fun a j => (∑ l, C a l * d l + e) * (if j = j0 then 1 else 0) : Pts 4 3)) i j = 0 := by
      intro j
      have hf : ∑ a, alphas x C i a * (∑ l, C a l * d l + e) = 0 := by
        rw [← h i hi]
        have e1 : ∀ l, x i l = ∑ a, alphas x C i a * C a l := fun l => by
          conv_lhs => rw [← h2]
          rw [Matrix.mul_apply]
        simp only [mul_add, Finset.sum_add_distrib, ← Finset.sum_mul, h1 i, one_mul]
        congr 1
        simp only [Finset.mul_sum, e1, Finset.sum_mul]
        rw [Finset.sum_comm]
        exact Finset.sum_congr rfl fun l _ => Finset.sum_congr rfl fun a _ => by ring
      rw [Matrix.mul_apply]
      simp only [of_apply, ← mul_assoc]
      rw [← Finset.sum_mul, hf, zero_mul]
    rw [hz, hz, hz]; simp
  obtain ⟨t0, h0⟩ := hker 0
  obtain ⟨t1, h1⟩ := hker 1
  have hval : ∀ a, ∑ l, C a l * d l + e = 0 := by
    intro a
    have e0 := congrFun (congrFun h0 a) 0
    have e1 := congrFun (congrFun h0 a) 1
    have e2 := congrFun (congrFun h1 a) 1
    simp only [of_apply, Matrix.smul_apply, smul_eq_mul, if_true, mul_one] at e0 e1 e2
    rw [if_neg (by decide), mul_zero] at e1
    rcases mul_eq_zero.1 e1.symm with h | h
    · rw [h, zero_mul] at e0; exact e0
    · rw [h, mul_zero] at e2; exact e2
  have v := hval
  simp only [hC, controlPts, of_apply, Fin.sum_univ_three] at v
  have v0 := v 0
  have v1 := v 1
  have v2 := v 2
  have v3 := v 3
  simp at v0 v1 v2 v3
  have d0 : d 0 = 0 := by linarith
  have d1 : d 1 = 0 := by linarith
  have d2 : d 2 = 0 := by linarith
  refine ⟨?_, ?_⟩
  · funext l; fin_cases l
    · exact d0
    · exact d1
    · exact d2
  · rw [d0, d1, d2] at v3; linarith

/-- The candidates. -/
def candidates (eigh : Eigh) (svd : Svd) (pinv : Pinv) (eps : ℝ) (x : Pts n 3) (y : Pts n 2) (w : Option (Fin n → ℝ))
    (skip : Bool) : List (Solution n) :=
  (variants pinv eps skip (nullSpace eigh (buildM y (alphas x (controlPts eps x w)) w)) (dists (controlPts eps x w))).map
    fun c => candidate svd eps c (alphas x (controlPts eps x w)) x y w

/-- **The result is the best candidate**, the first one with the smallest reprojection error among one or four. -/
theorem efficientPnp_best (eigh : Eigh) (svd : Svd) (pinv : Pinv) (eps : ℝ) (x : Pts n 3) (y : Pts n 2)
    (w : Option (Fin n → ℝ)) (skip : Bool) :
    (candidates eigh svd pinv eps x y w skip).length = (if skip then 1 else 4) ∧
    ∃ k : Nat, (candidates eigh svd pinv eps x y w skip)[k]? = some (efficientPnp eigh svd pinv eps x y w skip) ∧
      (∀ s ∈ candidates eigh svd pinv eps x y w skip, (efficientPnp eigh svd pinv eps x y w skip).err2d ≤ s.err2d) ∧
      ∀ (j : Nat) (s : Solution n), j < k → (candidates eigh svd pinv eps x y w skip)[j]? = some s →
        (efficientPnp eigh svd pinv eps x y w skip).err2d < s.err2d := by
  have hlen : (candidates eigh svd pinv eps x y w skip).length = (if skip then 1 else 4) := by
    cases skip <;> simp [candidates, variants]
  have hpos : 0 < (candidates eigh svd pinv eps x y w skip).length := by rw [hlen]; split <;> norm_num
  refine ⟨hlen, ?_⟩
  have heq : efficientPnp eigh svd pinv eps x y w skip = (candidates eigh svd pinv eps x y w skip).getD
      (Splatter.argmin (fun k => ((candidates eigh svd pinv eps x y w skip).map fun s => s.err2d).getD k 0)
        ((candidates eigh svd pinv eps x y w skip).length - 1))
      (candidate svd eps (nullSpace eigh (buildM y (alphas x (controlPts eps x w)) w) 0)
        (alphas x (controlPts eps x w)) x y w) := rfl
  generalize efficientPnp eigh svd pinv eps x y w skip = res at heq
  generalize candidates eigh svd pinv eps x y w skip = L at heq hpos
  obtain ⟨h1, h2, h3⟩ := Splatter.argmin_spec (fun k => (L.map fun s => s.err2d).getD k 0) (L.length - 1)
  generalize Splatter.argmin (fun k => (L.map fun s => s.err2d).getD k 0) (L.length - 1) = k at heq h1 h2 h3
  have hk : k < L.length := by omega
  have hres : L[k]? = some res := by
    rw [heq, List.getD_eq_getElem?_getD, List.getElem?_eq_getElem hk]; rfl
  have hval : ∀ (j : Nat) (s : Solution n), L[j]? = some s → (L.map fun s => s.err2d).getD j 0 = s.err2d := by
    intro j s hj
    rw [List.getD_eq_getElem?_getD, List.getElem?_map, hj]; rfl
  refine ⟨k, hres, fun s hs => ?_, fun j s hj hs => ?_⟩
  · obtain ⟨j, hj, rfl⟩ := List.getElem_of_mem hs
    have := h2 j (by omega)
    rwa [hval k res hres, hval j L[j] (List.getElem?_eq_getElem hj)] at this
  · have := h3 j hj
    rwa [hval k res hres, hval j s hs] at this

/-- **In any case** the matrix returned is a rotation, the errors are those of the pose returned and not negative. -/
theorem efficientPnp_rotation {svd : Svd} (hs : SvdOk svd) (eigh : Eigh) (pinv : Pinv) {eps : ℝ} (he : 0 < eps)
    (x : Pts n 3) (y : Pts n 2) (w : Option (Fin n → ℝ)) (hw : ∀ i, 0 ≤ weightOf w i) (skip : Bool) :
    Valid (k := 2) false (efficientPnp eigh svd pinv eps x y w skip).R ∧
    (efficientPnp eigh svd pinv eps x y w skip).err2d =
      reprojError eps (camPts x (efficientPnp eigh svd pinv eps x y w skip).R
        (efficientPnp eigh svd pinv eps x y w skip).T) y w ∧
    0 ≤ (efficientPnp eigh svd pinv eps x y w skip).err2d ∧ 0 ≤ (efficientPnp eigh svd pinv eps x y w skip).err3d := by
  obtain ⟨-, k, hk, -⟩ := efficientPnp_best eigh svd pinv eps x y w skip
  obtain ⟨c, -, hc⟩ := List.mem_map.1 (List.mem_of_getElem? hk)
  rw [← hc]
  refine ⟨?_, rfl, ?_, ?_⟩
  · exact (align_admissible (k := 2) hs true false he x _ n w).1
  · exact wmean1_nonneg he _ w hw fun i => Real.sqrt_nonneg _
  · exact wmean1_nonneg he _ w hw fun i => Finset.sum_nonneg fun j _ => sq_nonneg _

/-- **Recovery.**  If the data come from a camera and the equations have one solution up to multiples, the pose is
recovered exactly, for any weights and with or without the quadratic equations. -/
theorem efficientPnp_recovers {eigh : Eigh} (hei : EigOk eigh) {svd : Svd} (hs : SvdOk svd) (pinv : Pinv) {eps : ℝ}
    (he : 0 < eps) {x : Pts n 3} {y : Pts n 2} {w : Option (Fin n → ℝ)} {R : Matrix (Fin 3) (Fin 3) ℝ}
    {T : Fin 3 → ℝ} (h : Exact eps x y w R T)
    (hk : ∀ c, buildM y (alphas x (controlPts eps x w)) w *ᵥ flat c = 0 →
      ∃ t : ℝ, c = t • camPts (controlPts eps x w) R T)
    (hsize : eps ^ 2 * ∑ q, flat (camPts (controlPts eps x w) R T) q ^ 2 ≤ 1) (skip : Bool) :
    efficientPnp eigh svd pinv eps x y w skip = ⟨camPts x R T, R, T, 0, 0⟩ := by
  obtain ⟨hM, hne⟩ := true_kernel he h
  obtain ⟨h1, h2⟩ := nullSpace_zero hei _ _ hne hM
  obtain ⟨t, ht⟩ := hk _ h1
  have habs : eps ≤ |t| := by
    rw [ht] at h2
    have e : ∑ q, flat (t • camPts (controlPts eps x w) R T) q ^ 2 =
        t ^ 2 * ∑ q, flat (camPts (controlPts eps x w) R T) q ^ 2 := by
      rw [Finset.mul_sum]
      refine Finset.sum_congr rfl fun q _ => ?_
      simp only [flat, Matrix.smul_apply, smul_eq_mul]; ring
    rw [e] at h2
    set S := ∑ q, flat (camPts (controlPts eps x w) R T) q ^ 2
    have hS : 0 < S := by
      have h0 : 0 ≤ S := Finset.sum_nonneg fun q _ => sq_nonneg _
      rcases h0.lt_or_eq with h | h
      · exact h
      · rw [← h, mul_zero] at h2; exact absurd h2 zero_ne_one
    have : eps ^ 2 ≤ t ^ 2 := by
      refine le_of_mul_le_mul_right ?_ hS
      rw [h2]; exact hsize
    have := Real.sqrt_le_sqrt this
    rwa [Real.sqrt_sq he.le, Real.sqrt_sq_eq_abs] at this
  have hc0 := candidate_exact hs he h (spanning_of_kernel _ hk) t habs
  rw [← ht] at hc0
  obtain ⟨-, k, hk1, hk2, hk3⟩ := efficientPnp_best eigh svd pinv eps x y w skip
  have hfirst : (candidates eigh svd pinv eps x y w skip)[0]? = some ⟨camPts x R T, R, T, 0, 0⟩ := by
    rw [candidates, variants, List.map_cons, List.getElem?_cons_zero, hc0]
  rcases Nat.eq_zero_or_pos k with rfl | hp
  · rw [hfirst] at hk1; exact (Option.some.inj hk1).symm
  · have h4 := hk3 0 _ hp hfirst
    have h5 := (efficientPnp_rotation hs eigh pinv he x y w h.weights skip).2.2.1
    simp only at h4
    linarith

/-! ### The quadratic equations -/

/-- The products of the coefficients, in the order of the columns of `kernelDists`. -/
def prods (b : Fin 4 → ℝ) : Fin 10 → ℝ :=
  ![b 0 ^ 2, b 1 ^ 2, b 2 ^ 2, b 3 ^ 2, b 0 * b 1, b 0 * b 2, b 0 * b 3, b 1 * b 2, b 1 * b 3, b 2 * b 3]

/-- **Linearisation.**  The squared distances of a combination of the kernel vectors are `kernelDists` times the
products of the coefficients. -/
theorem dists_combine (v : Fin 4 → Pts 4 3) (b : Fin 4 → ℝ) : dists (combine v b) = kernelDists v *ᵥ prods b := by
  funext p
  simp only [dists, combine, Matrix.mulVec, dotProduct, kernelDists, prods, of_apply, Fin.sum_univ_three]
  generalize (pair p).1 = a
  generalize (pair p).2 = c
  simp [Fin.sum_univ_succ]
  ring

/-- A rotation keeps the distances. -/
theorem dists_cam (c : Pts 4 3) {R : Matrix (Fin 3) (Fin 3) ℝ} (hR : Rᵀ * R = 1) (T : Fin 3 → ℝ) :
    dists (camPts c R T) = dists c := by
  have hR' : R * Rᵀ = 1 := mul_eq_one_comm.1 hR
  funext p
  simp only [dists, camPts, of_apply]
  generalize (pair p).1 = a
  generalize (pair p).2 = b
  have h : ∀ i j, ∑ l, R i l * R j l = if i = j then 1 else 0 := fun i j => by
    have := congrFun (congrFun hR' i) j
    rw [Matrix.mul_apply, Matrix.one_apply] at this
    exact this
  have h00 := h 0 0
  have h01 := h 0 1
  have h02 := h 0 2
  have h11 := h 1 1
  have h12 := h 1 2
  have h22 := h 2 2
  simp [Fin.sum_univ_three] at h00 h01 h02 h11 h12 h22
  simp only [Matrix.mul_apply, Fin.sum_univ_three]
  linear_combination (c a 0 - c b 0) ^ 2 * h00 + (c a 1 - c b 1) ^ 2 * h11 + (c a 2 - c b 2) ^ 2 * h22
    + 2 * (c a 0 - c b 0) * (c a 1 - c b 1) * h01 + 2 * (c a 0 - c b 0) * (c a 2 - c b 2) * h02
    + 2 * (c a 1 - c b 1) * (c a 2 - c b 2) * h12

theorem bsign_sq (b : ℝ) : bsign (b ^ 2) = 1 := if_pos (sq_nonneg b)

theorem coordB_sq (a b : ℝ) : coordB (a ^ 2) (b ^ 2) = |b| := by
  rw [coordB, abs_of_nonneg (sq_nonneg b), Real.sqrt_sq_eq_abs]
  simp [sq_nonneg]

theorem sqrt_abs_sq (b : ℝ) : √|b ^ 2| = |b| := by rw [abs_of_nonneg (sq_nonneg b), Real.sqrt_sq_eq_abs]

/-- The right sign. -/
def sgnOf (b0 b1 : ℝ) : ℝ := if b1 = 0 then bsign b0 else bsign b1

theorem sgnOf_abs (b0 b1 : ℝ) : |sgnOf b0 b1| = 1 := by
  unfold sgnOf bsign; split <;> split <;> simp

theorem lead (b0 b1 : ℝ) : |b0| * bsign (b0 * b1) = sgnOf b0 b1 * b0 ∧ |b1| = sgnOf b0 b1 * b1 := by
  unfold sgnOf bsign
  by_cases h1 : b1 = 0
  · subst h1
    rcases le_or_gt 0 b0 with h | h
    · simp [h, abs_of_nonneg h]
    · simp [not_le.2 h, abs_of_neg h]
  · rw [if_neg h1]
    rcases lt_or_gt_of_ne h1 with h2 | h2
    · rw [if_neg (not_le.2 h2), abs_of_neg h2]
      refine ⟨?_, by ring⟩
      rcases lt_trichotomy b0 0 with h | h | h
      · rw [if_pos (mul_pos_of_neg_of_neg h h2).le, abs_of_neg h]; ring
      · subst h; simp
      · rw [if_neg (not_le.2 (mul_neg_of_pos_of_neg h h2)), abs_of_pos h]; ring
    · rw [if_pos h2.le, abs_of_pos h2]
      refine ⟨?_, by ring⟩
      rcases lt_trichotomy b0 0 with h | h | h
      · rw [if_neg (not_le.2 (mul_neg_of_neg_of_pos h h2)), abs_of_neg h]; ring
      · subst h; simp
      · rw [if_pos (mul_pos h h2).le, abs_of_pos h]; ring

/-- **Case 1** gives the coefficients, up to the sign, from the products `b0 b0, b0 b1, b0 b2, b0 b3`; -/
theorem coords1_eq {eps : ℝ} (he : 0 < eps) (b : Fin 4 → ℝ) (hb : eps ≤ |b 0|) :
    coords1 eps (fun k => b 0 * b k) = fun k => bsign (b 0) * b k := by
  have h0 : b 0 ≠ 0 := by intro h; rw [h, abs_zero] at hb; linarith
  funext k
  have h1 : bsign (b 0 * b 0) = 1 := if_pos (mul_self_nonneg _)
  rw [coords1, h1, mul_one, mul_one, Real.sqrt_mul_self_eq_abs, max_eq_left hb]
  unfold bsign
  rcases lt_or_gt_of_ne h0 with h | h
  · rw [if_neg (not_le.2 h), abs_of_neg h]; field_simp
  · rw [if_pos h.le, abs_of_pos h]; field_simp

/-- **case 2** from `b0 b0, b0 b1, b1 b1`; -/
theorem coords2_eq (b0 b1 : ℝ) : coords2 ![b0 ^ 2, b0 * b1, b1 ^ 2] = sgnOf b0 b1 • ![b0, b1, 0, 0] := by
  obtain ⟨h1, h2⟩ := lead b0 b1
  have e0 : √|b0 ^ 2| * bsign (b0 * b1) = sgnOf b0 b1 * b0 := by rw [sqrt_abs_sq, h1]
  have e1 : coordB (b0 ^ 2) (b1 ^ 2) = sgnOf b0 b1 * b1 := by rw [coordB_sq, h2]
  funext k
  fin_cases k
  · simpa [coords2] using e0
  · simpa [coords2] using e1
  · simp [coords2]
  · simp [coords2]

/-- **case 3** from `b0 b0, b0 b1, b1 b1, b0 b2, b1 b2`, if `b0` and `b1` have the same sign. -/
theorem coords3_eq {eps : ℝ} (_he : 0 < eps) (b0 b1 b2 : ℝ) (hb : eps ≤ |b0|) (hs : 0 < b0 * b1) :
    coords3 eps ![b0 ^ 2, b0 * b1, b1 ^ 2, b0 * b2, b1 * b2] = sgnOf b0 b1 • ![b0, b1, b2, 0] := by
  obtain ⟨h1, h2⟩ := lead b0 b1
  have h0 : b0 ≠ 0 := left_ne_zero_of_mul hs.ne'
  have hab : |b0| ≠ 0 := abs_ne_zero.2 h0
  have e0 : √|b0 ^ 2| * bsign (b0 * b1) = sgnOf b0 b1 * b0 := by rw [sqrt_abs_sq, h1]
  have e1 : coordB (b0 ^ 2) (b1 ^ 2) = sgnOf b0 b1 * b1 := by rw [coordB_sq, h2]
  have hpos : sgnOf b0 b1 * b0 = |b0| := by rw [← h1, bsign, if_pos hs.le, mul_one]
  have e2 : b0 * b2 / max (√|b0 ^ 2| * bsign (b0 * b1)) eps = sgnOf b0 b1 * b2 := by
    rw [e0, hpos, max_eq_left hb, ← hpos]
    have hsg : sgnOf b0 b1 * sgnOf b0 b1 = 1 := by
      have := sgnOf_abs b0 b1
      rw [← abs_mul_abs_self, this, mul_one]
    have hsg0 : sgnOf b0 b1 ≠ 0 := left_ne_zero_of_mul (by rw [hsg]; exact one_ne_zero)
    field_simp
    linear_combination (-b2) * hsg
  funext k
  fin_cases k
  · simpa [coords3] using e0
  · simpa [coords3] using e1
  · simpa [coords3] using e2
  · simp [coords3]

/-- **A wrong clamp.**  If `b0` and `b1` have different signs, the third coordinate is divided by `eps`, however large
`b0` is: the code clamps a number from below that can be negative. -/
theorem coords3_wrong {eps : ℝ} (he : 0 < eps) (b0 b1 b2 : ℝ) (hs : b0 * b1 < 0) :
    coords3 eps ![b0 ^ 2, b0 * b1, b1 ^ 2, b0 * b2, b1 * b2] 2 = b0 * b2 / eps := by
  have e2 : max (√|b0 ^ 2| * bsign (b0 * b1)) eps = eps := by
    rw [sqrt_abs_sq, bsign, if_neg (not_le.2 hs)]
    exact max_eq_right (by linarith [abs_nonneg b0])
  have : coords3 eps ![b0 ^ 2, b0 * b1, b1 ^ 2, b0 * b2, b1 * b2] 2 =
      b0 * b2 / max (√|b0 ^ 2| * bsign (b0 * b1)) eps := by simp [coords3]
  rw [this, e2]

/-- **Two kernel vectors.**  If the data come from a camera, the points are not in one plane, the control points in
camera coordinates are a combination of the first two vectors found and the linear system of case 2 has independent
columns, then the pose returned projects every point with non-zero weight to its given place. -/
theorem efficientPnp_two (eigh : Eigh) {svd : Svd} (hs : SvdOk svd) {pinv : Pinv} (hp : PinvOk pinv)
    {eps : ℝ} (he : 0 < eps) (he1 : eps ≤ 1) {x : Pts n 3} {y : Pts n 2} {w : Option (Fin n → ℝ)}
    {R : Matrix (Fin 3) (Fin 3) ℝ} {T : Fin 3 → ℝ} (h : Exact eps x y w R T) (hsp : Spanning x w) (b0 b1 : ℝ)
    (hc : camPts (controlPts eps x w) R T =
      combine (nullSpace eigh (buildM y (alphas x (controlPts eps x w)) w)) ![b0, b1, 0, 0])
    (hind : ∀ u : Fin 3 → ℝ, ((kernelDists (nullSpace eigh (buildM y (alphas x (controlPts eps x w)) w))).submatrix
      id ![0, 4, 1]) *ᵥ u = 0 → u = 0) :
    (efficientPnp eigh svd pinv eps x y w false).err2d = 0 ∧
    ∀ i, weightOf w i ≠ 0 →
      let X := camPts x (efficientPnp eigh svd pinv eps x y w false).R (efficientPnp eigh svd pinv eps x y w false).T
      y i 0 = X i 0 / max (X i 2) eps ∧ y i 1 = X i 1 / max (X i 2) eps := by
  set v := nullSpace eigh (buildM y (alphas x (controlPts eps x w)) w) with hv
  have hd : dists (controlPts eps x w) = ((kernelDists v).submatrix id ![0, 4, 1]) *ᵥ ![b0 ^ 2, b0 * b1, b1 ^ 2] := by
    rw [← dists_cam (controlPts eps x w) h.rot.1 T, hc, dists_combine]
    funext p
    simp [Matrix.mulVec, dotProduct, Fin.sum_univ_succ, prods]
    ring
  have hl : lstsq pinv (kernelDists v) (dists (controlPts eps x w)) ![0, 4, 1] = ![b0 ^ 2, b0 * b1, b1 ^ 2] := by
    rw [lstsq, hd, Matrix.mulVec_mulVec, hp 3 _ hind, Matrix.one_mulVec]
  have hcomb : combine v (coords2 (lstsq pinv (kernelDists v) (dists (controlPts eps x w)) ![0, 4, 1])) =
      sgnOf b0 b1 • camPts (controlPts eps x w) R T := by
    rw [hl, coords2_eq, hc]
    ext a j
    simp only [combine, of_apply, Matrix.smul_apply, smul_eq_mul, Pi.smul_apply, Finset.mul_sum]
    exact Finset.sum_congr rfl fun k _ => by ring
  have hcand := candidate_exact hs he h hsp (sgnOf b0 b1) (by rw [sgnOf_abs]; exact he1)
  rw [← hcomb] at hcand
  have hmem : (⟨camPts x R T, R, T, 0, 0⟩ : Solution n) ∈ candidates eigh svd pinv eps x y w false := by
    rw [← hcand, candidates, ← hv]
    refine List.mem_map.2 ⟨_, ?_, rfl⟩
    simp [variants]
  obtain ⟨-, k, -, hmin, -⟩ := efficientPnp_best eigh svd pinv eps x y w false
  obtain ⟨-, h2, h3, -⟩ := efficientPnp_rotation hs eigh pinv he x y w h.weights false
  have h0 : (efficientPnp eigh svd pinv eps x y w false).err2d = 0 := le_antisymm (hmin _ hmem) h3
  refine ⟨h0, ?_⟩
  rw [h2] at h0
  exact (reprojError_zero he _ _ h.mean h.weights).1 h0

/-! ### The assumptions can be met -/

theorem pinvOk_exists : ∃ pinv : Pinv, PinvOk pinv := by
  refine ⟨fun m A => (Aᵀ * A)⁻¹ * Aᵀ, fun m A hA => ?_⟩
  have hu : IsUnit (Aᵀ * A) := by
    rw [← Matrix.mulVec_injective_iff_isUnit]
    intro a b hab
    have h : (Aᵀ * A) *ᵥ (a - b) = 0 := by rw [Matrix.mulVec_sub]; exact sub_eq_zero.2 hab
    have h2 : (A *ᵥ (a - b)) ⬝ᵥ (A *ᵥ (a - b)) = 0 := by
      rw [Matrix.dotProduct_mulVec, Matrix.vecMul_mulVec, ← Matrix.dotProduct_mulVec, h, dotProduct_zero]
    exact sub_eq_zero.1 (hA _ (dotProduct_self_eq_zero.1 h2))
  rw [Matrix.mul_assoc, Matrix.nonsing_inv_mul _ ((Matrix.isUnit_iff_isUnit_det _).1 hu)]

theorem basis_dot' (B : OrthonormalBasis CP ℝ (EuclideanSpace ℝ CP)) (i j : CP) :
    ∑ l, B i l * B j l = if i = j then 1 else 0 := by
  have h := orthonormal_iff_ite.mp B.orthonormal i j
  rw [EuclideanSpace.inner_eq_star_dotProduct] at h
  rw [← h, dotProduct]
  exact Finset.sum_congr rfl fun l _ => mul_comm _ _

theorem eigOk_exists : ∃ eigh : Eigh, EigOk eigh := by
  have key : ∀ A : Matrix CP CP ℝ, ∃ (s : Fin 12 → ℝ) (V : Matrix CP (Fin 12) ℝ), Aᵀ = A →
      Vᵀ * V = 1 ∧ A * V = V * diagonal s ∧ Monotone s := by
    intro A
    by_cases hA : Aᵀ = A
    · have hH : A.IsHermitian := by rw [Matrix.IsHermitian, Matrix.conjTranspose_eq_transpose_of_trivial, hA]
      let e : Fin 12 ≃ CP := (Fintype.equivFinOfCardEq (by simp : Fintype.card CP = 12)).symm
      let σ := Tuple.sort (hH.eigenvalues ∘ e)
      let B := hH.eigenvectorBasis
      refine ⟨hH.eigenvalues ∘ e ∘ σ, of fun q k => B (e (σ k)) q, fun _ => ⟨?_, ?_, Tuple.monotone_sort (hH.eigenvalues ∘ e)⟩⟩
      · ext i j
        rw [Matrix.mul_apply, Matrix.one_apply]
        have hij : (e (σ i) = e (σ j)) ↔ i = j := by rw [e.injective.eq_iff, σ.injective.eq_iff]
        have h := basis_dot' B (e (σ i)) (e (σ j))
        simp only [hij] at h
        exact h
      · ext q k
        have h := hH.mulVec_eigenvectorBasis (e (σ k))
        have h := congrFun h q
        rw [Matrix.mul_diagonal, Matrix.mul_apply]
        simp only [of_apply, Function.comp_apply]
        rw [mul_comm]
        exact h
    · exact ⟨0, 0, fun h => absurd h hA⟩
  choose s V h using key
  exact ⟨fun A => (s A, V A), h⟩

/-! ### Example -/

/-- Eight points around the origin, -/
def exX : Pts 8 3 := !![1, 0, 0; -1, 0, 0; 0, 1, 0; 0, -1, 0; 0, 0, 1; 0, 0, -1; 1, 0, 1; -1, 0, -1]

/-- and their images in a camera at distance two. -/
def exY : Pts 8 2 := !![1/2, 0; -1/2, 0; 0, 1/2; 0, -1/2; 0, 0; 0, 0; 1/3, 0; -1, 0]

theorem exMean (j : Fin 3) : wmean (k := 2) (1 / 10 ^ 9) exX none j = 0 := by
  simp only [wmean, exX]
  fin_cases j <;> simp [Fin.sum_univ_succ]

theorem exCam (i : Fin 8) : camPts exX 1 ![0, 0, 2] i = ![exX i 0, exX i 1, exX i 2 + 2] := by
  funext j
  simp only [camPts, Matrix.mul_one, of_apply]
  fin_cases j <;> simp

theorem exExact : Exact (1 / 10 ^ 9) exX exY none 1 ![0, 0, 2] where
  rot := ⟨by simp, by simp⟩
  front i := by rw [exCam]; fin_cases i <;> simp [exX] <;> norm_num
  proj i := by rw [exCam]; fin_cases i <;> constructor <;> simp [exX, exY] <;> norm_num
  mean := by simp [MeanOk]
  weights i := by simp [weightOf]
  variance := by
    simp only [variance, exMean, weightOf, totalWeight]
    simp [exX, Fin.sum_univ_succ]
    norm_num

theorem exKernel (c : Pts 4 3) (h : buildM exY (alphas exX (controlPts (1 / 10 ^ 9) exX none)) none *ᵥ flat c = 0) :
    ∃ t : ℝ, c = t • camPts (controlPts (1 / 10 ^ 9) exX none) 1 ![0, 0, 2] := by
  rw [buildM_zero] at h
  have h := fun i => h i (by simp [weightOf])
  simp only [Matrix.mul_apply, alphas_eq, exMean] at h
  have g0 := h 0
  have g1 := h 1
  have g2 := h 2
  have g3 := h 3
  have g4 := h 4
  have g5 := h 5
  have g6 := h 6
  have g7 := h 7
  simp [exX, exY, Fin.sum_univ_succ] at g0 g1 g2 g3 g4 g5 g6 g7
  refine ⟨c 3 2 / 2, ?_⟩
  ext a j
  simp only [camPts, controlPts, Matrix.mul_one, of_apply, exMean, Matrix.smul_apply, smul_eq_mul]
  fin_cases a <;> fin_cases j <;> simp <;> linarith [g0.1, g0.2, g1.1, g1.2, g2.1, g2.2, g3.1, g3.2, g4.1, g4.2, g5.1, g5.2, g6.1, g6.2, g7.1, g7.2]

/-- The pose of the example is recovered. -/
example {eigh : Eigh} (hei : EigOk eigh) {svd : Svd} (hs : SvdOk svd) (pinv : Pinv) (skip : Bool) :
    efficientPnp eigh svd pinv (1 / 10 ^ 9) exX exY none skip = ⟨camPts exX 1 ![0, 0, 2], 1, ![0, 0, 2], 0, 0⟩ := by
  refine efficientPnp_recovers hei hs pinv (by norm_num) exExact exKernel ?_ skip
  simp only [flat, camPts, controlPts, Matrix.mul_one, of_apply, exMean, Fintype.sum_prod_type]
  simp [Fin.sum_univ_succ]
  norm_num

end

end P3D.PnP
