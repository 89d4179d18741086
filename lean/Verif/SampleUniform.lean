/-
`ops/sample_points_from_meshes.py` `_rand_barycentric_coords` (lines 155-178): the barycentric coordinates made from two uniform numbers
are uniformly distributed over the triangle, and the points drawn with `multinomial` over the areas are uniformly distributed over the
surface of the mesh.

`torch.rand` is the uniform distribution on `[0, 1) × [0, 1)`; `multinomial` takes a face with a probability proportional to its weight.
-/
import Verif.Vec3
import Mathlib.MeasureTheory.Function.Jacobian
import Mathlib.Analysis.SpecialFunctions.PolarCoord
import Mathlib.Analysis.SpecialFunctions.Sqrt

set_option linter.unusedSectionVars false
namespace P3D.SampleMesh

open P3D MeasureTheory Set

/-- sample_points_from_meshes.py:172-178: `w0, w1, w2` from `u, v`. -/
noncomputable def bary (u v : ℝ) : ℝ × ℝ × ℝ := (1 - Real.sqrt u, Real.sqrt u * (1 - v), Real.sqrt u * v)

/-- The range of `torch.rand`. -/
def square : Set (ℝ × ℝ) := Ico 0 1 ×ˢ Ico 0 1

/-- The last two barycentric coordinates of the points inside a triangle. -/
def triangle : Set (ℝ × ℝ) := {p | 0 < p.1 ∧ 0 < p.2 ∧ p.1 + p.2 < 1}

theorem bary_sum (u v : ℝ) : (bary u v).1 + (bary u v).2.1 + (bary u v).2.2 = 1 := by simp only [bary]; ring

theorem bary_nonneg {u v : ℝ} (hu : u < 1) (h0 : 0 ≤ v) (h1 : v < 1) : 0 < (bary u v).1 ∧ 0 ≤ (bary u v).2.1 ∧ 0 ≤ (bary u v).2.2 := by
  have hs : Real.sqrt u < 1 := by rw [Real.sqrt_lt' one_pos]; simpa using hu
  have h2 := Real.sqrt_nonneg u
  refine ⟨?_, ?_, ?_⟩ <;> simp only [bary]
  · linarith
  · exact mul_nonneg h2 (by linarith)
  · exact mul_nonneg h2 h0

/-! ### Change of variables -/

/-- The last two coordinates as a map of the plane. -/
noncomputable def bmap (p : ℝ × ℝ) : ℝ × ℝ := (Real.sqrt p.1 * (1 - p.2), Real.sqrt p.1 * p.2)

noncomputable def dmap (p : ℝ × ℝ) : ℝ × ℝ →L[ℝ] ℝ × ℝ :=
  (Matrix.toLin (.finTwoProd ℝ) (.finTwoProd ℝ)
    !![1 / (2 * Real.sqrt p.1) * (1 - p.2), -Real.sqrt p.1; 1 / (2 * Real.sqrt p.1) * p.2, Real.sqrt p.1]).toContinuousLinearMap

theorem hasFDerivAt_bmap {p : ℝ × ℝ} (hp : 0 < p.1) : HasFDerivAt bmap (dmap p) p := by
  unfold dmap
  rw [Matrix.toLin_finTwoProd_toContinuousLinearMap]
  have h1 := (Real.hasDerivAt_sqrt hp.ne').comp_hasFDerivAt p (hasFDerivAt_fst (𝕜 := ℝ) (p := p))
  have h2 : HasFDerivAt (fun q : ℝ × ℝ => 1 - q.2) (-ContinuousLinearMap.snd ℝ ℝ ℝ) p := by
    simpa using (hasFDerivAt_snd (𝕜 := ℝ) (p := p)).const_sub 1
  have := HasFDerivAt.prodMk (𝕜 := ℝ) (h1.mul h2) (h1.mul (hasFDerivAt_snd (𝕜 := ℝ) (p := p)))
  refine this.congr_fderiv ?_
  ext <;> simp <;> ring

theorem det_dmap {p : ℝ × ℝ} (hp : 0 < p.1) : (dmap p).det = 1 / 2 := by
  unfold dmap
  simp only [LinearMap.det_toContinuousLinearMap, LinearMap.det_toLin, Matrix.det_fin_two_of]
  have := (Real.sqrt_pos.mpr hp).ne'
  field_simp
  ring

/-- The inner part of the square. -/
def inner' : Set (ℝ × ℝ) := Ioo 0 1 ×ˢ Ioo 0 1

theorem bmap_inj : InjOn bmap inner' := by
  rintro ⟨u, v⟩ ⟨⟨hu0, hu1⟩, _⟩ ⟨u', v'⟩ ⟨⟨hu0', hu1'⟩, _⟩ h
  simp only [bmap, Prod.mk.injEq] at h hu0 hu0'
  have e : Real.sqrt u = Real.sqrt u' := by linarith [h.1, h.2]
  have e2 : u = u' := by rw [← Real.sq_sqrt hu0.le, ← Real.sq_sqrt hu0'.le, e]
  subst e2
  have := (Real.sqrt_pos.mpr hu0).ne'
  exact Prod.ext rfl (mul_left_cancel₀ this h.2)

theorem bmap_image : bmap '' inner' = triangle := by
  ext ⟨x, y⟩
  constructor
  · rintro ⟨⟨u, v⟩, ⟨⟨hu0, hu1⟩, hv0, hv1⟩, h⟩
    simp only [bmap, Prod.mk.injEq] at h hu0 hu1 hv0 hv1
    obtain ⟨rfl, rfl⟩ := h
    have h0 := Real.sqrt_pos.mpr hu0
    have hs : Real.sqrt u < 1 := by rw [Real.sqrt_lt' one_pos]; simpa using hu1
    refine ⟨mul_pos h0 (by linarith), mul_pos h0 hv0, ?_⟩
    simp only
    nlinarith
  · rintro ⟨hx, hy, hxy⟩
    simp only at hx hy hxy
    have hs : Real.sqrt ((x + y) ^ 2) = x + y := Real.sqrt_sq (by linarith)
    refine ⟨((x + y) ^ 2, y / (x + y)), ⟨⟨by positivity, ?_⟩, by positivity, ?_⟩, ?_⟩
    · simp only; nlinarith
    · simp only; rw [div_lt_one (by linarith)]; linarith
    · have hne : x + y ≠ 0 := by linarith
      simp only [bmap, hs, Prod.mk.injEq]
      constructor <;> field_simp
      ring

theorem square_ae : (square : Set (ℝ × ℝ)) =ᵐ[volume] inner' := by
  unfold square inner'
  exact Measure.set_prod_ae_eq Ioo_ae_eq_Ico.symm Ioo_ae_eq_Ico.symm

theorem bmap_measurable : Measurable bmap := by
  unfold bmap
  exact ((Real.continuous_sqrt.measurable.comp measurable_fst).mul (measurable_const.sub measurable_snd)).prodMk
    ((Real.continuous_sqrt.measurable.comp measurable_fst).mul measurable_snd)

/-- **The coordinates are uniformly distributed over the triangle**: the probability of any set of them is its area divided by the area of
the triangle, which is one half. -/
theorem bary_uniform {R : Set (ℝ × ℝ)} (hR : MeasurableSet R) :
    volume (square ∩ {p | ((bary p.1 p.2).2.1, (bary p.1 p.2).2.2) ∈ R}) = 2 * volume (triangle ∩ R) := by
  have hs : MeasurableSet (inner' ∩ bmap ⁻¹' R) := (measurableSet_Ioo.prod measurableSet_Ioo).inter (bmap_measurable hR)
  have key := lintegral_abs_det_fderiv_eq_addHaar_image volume hs (f := bmap) (f' := dmap)
    (fun p hp => (hasFDerivAt_bmap hp.1.1.1).hasFDerivWithinAt) (bmap_inj.mono inter_subset_left)
  have himg : bmap '' (inner' ∩ bmap ⁻¹' R) = triangle ∩ R := by rw [image_inter_preimage, bmap_image]
  have hint : (∫⁻ p in inner' ∩ bmap ⁻¹' R, ENNReal.ofReal |(dmap p).det|) = ENNReal.ofReal (1 / 2) * volume (inner' ∩ bmap ⁻¹' R) := by
    rw [setLIntegral_congr_fun hs (g := fun _ => ENNReal.ofReal (1 / 2)) (fun p hp => by
      simp only
      rw [det_dmap hp.1.1.1, abs_of_pos (by norm_num)])]
    rw [setLIntegral_const]
  rw [himg, hint] at key
  have hae : volume (square ∩ bmap ⁻¹' R) = volume (inner' ∩ bmap ⁻¹' R) := measure_congr (square_ae.inter (ae_eq_refl _))
  change volume (square ∩ bmap ⁻¹' R) = _
  rw [hae, ← key, ← mul_assoc]
  have : (2 : ENNReal) * ENNReal.ofReal (1 / 2) = 1 := by
    rw [show (2 : ENNReal) = ENNReal.ofReal 2 by simp, ← ENNReal.ofReal_mul (by norm_num)]
    norm_num
  rw [this, one_mul]

theorem triangle_volume : volume triangle = ENNReal.ofReal (1 / 2) := by
  have h := bary_uniform MeasurableSet.univ
  have hsq : volume square = 1 := by
    unfold square
    rw [Measure.volume_eq_prod, Measure.prod_prod]
    simp
  rw [show ({p : ℝ × ℝ | ((bary p.1 p.2).2.1, (bary p.1 p.2).2.2) ∈ (univ : Set (ℝ × ℝ))}) = univ by ext; simp, inter_univ, inter_univ, hsq] at h
  have : (2 : ENNReal) * ENNReal.ofReal (1 / 2) = 1 := by
    rw [show (2 : ENNReal) = ENNReal.ofReal 2 by simp, ← ENNReal.ofReal_mul (by norm_num)]
    norm_num
  have h2 : (2 : ENNReal) * volume triangle = 2 * ENNReal.ofReal (1 / 2) := by rw [this, ← h]
  exact (ENNReal.mul_right_inj (by norm_num) (by norm_num)).mp h2

/-! ### The surface -/

/-- The area of the part `R` (in barycentric coordinates) of a flat triangle of area `a`. -/
noncomputable def patch (a : ℝ) (R : Set (ℝ × ℝ)) : ℝ := 2 * a * volume.real (triangle ∩ R)

theorem patch_all (a : ℝ) : patch a univ = a := by
  rw [patch, inter_univ, Measure.real, triangle_volume, ENNReal.toReal_ofReal (by norm_num)]; ring

/-- The probability that a sample falls into the part of the surface made of the parts `R f` of the faces, areas `a f`: a face is taken by
`multinomial`, the point on it by `_rand_barycentric_coords`. -/
noncomputable def prob {n : Nat} (a : Fin n → ℝ) (R : Fin n → Set (ℝ × ℝ)) : ℝ :=
  ∑ f, a f / (∑ k, a k) * volume.real (square ∩ {p | ((bary p.1 p.2).2.1, (bary p.1 p.2).2.2) ∈ R f})

/-- **The samples are uniformly distributed over the surface.** -/
theorem prob_uniform {n : Nat} (a : Fin n → ℝ) (R : Fin n → Set (ℝ × ℝ)) (hR : ∀ f, MeasurableSet (R f)) :
    prob a R = (∑ f, patch (a f) (R f)) / ∑ f, a f := by
  unfold prob
  rw [Finset.sum_div]
  refine Finset.sum_congr rfl fun f _ => ?_
  rw [Measure.real, bary_uniform (hR f), ENNReal.toReal_mul, patch, Measure.real]
  simp only [ENNReal.toReal_ofNat]
  ring

/-- A quarter of the triangle is hit by a quarter of the samples. -/
example : volume (square ∩ {p | ((bary p.1 p.2).2.1, (bary p.1 p.2).2.2) ∈ {q : ℝ × ℝ | q.1 + q.2 < 1 / 2}}) =
    2 * volume (triangle ∩ {q : ℝ × ℝ | q.1 + q.2 < 1 / 2}) :=
  bary_uniform (measurableSet_lt (measurable_fst.add measurable_snd) measurable_const)

end P3D.SampleMesh
