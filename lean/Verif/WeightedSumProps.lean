/-
C36: the weighted-sum compositors: values, normalisation, gradients, CPU = CUDA.
-/
import Verif.CompositingProps
import Mathlib.Analysis.Calculus.Deriv.Inv
import Mathlib.Analysis.Calculus.Deriv.Mul
import Mathlib.Analysis.Calculus.Deriv.Add

set_option linter.unusedSectionVars false

namespace P3D.Compositing
open P3D.Scatter P3D.Chunks

section Field
variable {R : Type*} [Field R]

/-- Sum of the weights of the given slots that hold a point. -/
def Px.alphaSum (p : Px R) (ks : List Nat) : R := ((p.valid ks).map p.al).sum

/-- Sum of weight times feature over the slots that hold a point. -/
def Px.weightedSum (p : Px R) (ks : List Nat) : R :=
  ((p.valid ks).map fun k => p.al k * p.f (p.idx k).toNat).sum

theorem filterMap_valid {β : Type*} (p : Px R) (ks : List Nat) (v : Nat → β) :
    (ks.filterMap fun k => if p.idx k < 0 then none else some (v k)) = (p.valid ks).map v := by
  unfold Px.valid
  induction ks with
  | nil => rfl
  | cons k ks ih => by_cases h : p.idx k < 0 <;> simp [h, ih]

theorem wsForward_sum (p : Px R) : (wsForward p).sum = p.weightedSum (List.range p.K) := by
  rw [wsForward, filterMap_valid]; rfl

/-- **C36 (weighted_sum, value).** The output is the plain sum over the slots holding a point. -/
theorem weightedSum_value (x : In R) {b c j i : Nat} (hb : b < x.B) (hc : c < x.C)
    (hj : j < x.H) (hi : i < x.W) :
    cpuForward wsForward x (b, c, j, i)
      = (x.px (b, c, j, i)).weightedSum (List.range x.K) := by
  rw [cpuForward_apply, if_pos (mem_pixels.mpr ⟨hb, hc, hj, hi⟩), wsForward_sum]; rfl

/-- Adding to the weights. -/
def In.addAlphas (x : In R) (v : Ix → R) : In R := { x with alphas := fun q => x.alphas q + v q }

theorem gradAlphas_pairing (G : R → Px R → Back R) (x : In R) (gout : Ix → R)
    (hK : ∀ p ∈ pixels x.B x.C x.H x.W, ∀ c ∈ (G (gout p) (x.px p)).ga, c.1 < x.K)
    (u : Ix → R) :
    ∑ q ∈ Finset.range x.B ×ˢ Finset.range x.K ×ˢ Finset.range x.H ×ˢ Finset.range x.W,
        (cpuBackward G x gout).2 q * u q
      = ((pixels x.B x.C x.H x.W).map fun p =>
          ((G (gout p) (x.px p)).ga.map fun c =>
            c.2 * u (p.1, c.1, p.2.2.1, p.2.2.2)).sum).sum := by
  have e := sum_scatterAdd (gaContribs G (pixels x.B x.C x.H x.W) x gout)
    (Finset.range x.B ×ˢ Finset.range x.K ×ˢ Finset.range x.H ×ˢ Finset.range x.W) ?_ u
  · show ∑ q ∈ _, scatterAdd _ q * u q = _
    rw [e, gaContribs]
    induction pixels x.B x.C x.H x.W with
    | nil => rfl
    | cons p ps ih =>
      simp only [List.flatMap_cons, List.map_append, List.sum_append, ih, List.map_cons,
        List.sum_cons, List.map_map]
      rfl
  · intro c hc
    simp only [gaContribs, List.mem_flatMap, List.mem_map] at hc
    obtain ⟨p, hp, c', hc', rfl⟩ := hc
    have := hK _ hp _ hc'
    obtain ⟨b, c, j, i⟩ := p
    obtain ⟨h1, h2, h3, h4⟩ := mem_pixels.mp hp
    simp only [Finset.mem_product, Finset.mem_range]
    exact ⟨h1, this, h3, h4⟩

/-- **C36 (weighted_sum, gradients).** The loss is linear in the weights and in the features, with
exactly the returned gradients. -/
theorem weightedSum_gradAlphas (x : In R) (gout v : Ix → R) :
    loss wsForward (x.addAlphas v) gout = loss wsForward x gout
      + ∑ q ∈ Finset.range x.B ×ˢ Finset.range x.K ×ˢ Finset.range x.H ×ˢ Finset.range x.W,
          (cpuBackward wsBackward x gout).2 q * v q := by
  rw [gradAlphas_pairing]
  · unfold loss
    rw [← List.sum_map_add]
    show ((pixels x.B x.C x.H x.W).map _).sum = _
    congr 1
    apply List.map_congr_left
    intro p _
    rw [wsForward_sum, wsForward_sum, wsBackward, filterMap_valid, List.map_map]
    unfold Px.weightedSum
    show gout p * (((x.px p).valid (List.range x.K)).map fun k => ((x.px p).al k
      + v (p.1, k, p.2.2.1, p.2.2.2)) * (x.px p).f ((x.px p).idx k).toNat).sum = gout p *
      (((x.px p).valid (List.range x.K)).map fun k =>
        (x.px p).al k * (x.px p).f ((x.px p).idx k).toNat).sum
      + (((x.px p).valid (List.range x.K)).map _).sum
    rw [← List.sum_map_mul_left, ← List.sum_map_mul_left, ← List.sum_map_add]
    congr 1
    apply List.map_congr_left
    intro k _
    simp only [Function.comp]
    ring
  · intro p _ c hc
    rw [wsBackward, filterMap_valid] at hc
    obtain ⟨k, hk, rfl⟩ := List.mem_map.mp hc
    exact List.mem_range.mp (List.mem_of_mem_filter hk)

/-- Feature gradients of compositors of the form `∑ w_k f_k` with weights independent of `f`. -/
theorem linear_gradFeatures (F : Px R → List R) (G : R → Px R → Back R) (w : Px R → Nat → R)
    (hw : ∀ (p : Px R) (f' : Nat → R), w { p with f := f' } = w p)
    (hF : ∀ p : Px R, (F p).sum
      = ((p.valid (List.range p.K)).map fun k => w p k * p.f (p.idx k).toNat).sum)
    (hG : ∀ g (p : Px R), (G g p).gf
      = (p.valid (List.range p.K)).map fun k => ((p.idx k).toNat, g * w p k))
    (x : In R) (gout : Ix → R) (P : Nat) (hP : x.InRange P) (u : Nat × Nat → R) :
    loss F (x.withFeatures fun q => x.features q + u q) gout = loss F x gout
      + ∑ q ∈ Finset.range x.C ×ˢ Finset.range P, (cpuBackward G x gout).1 q * u q := by
  rw [gradFeatures_pairing]
  · unfold loss
    rw [← List.sum_map_add]
    show ((pixels x.B x.C x.H x.W).map _).sum = _
    congr 1
    apply List.map_congr_left
    intro p _
    rw [hF, hF, hG, List.map_map]
    have : w ((x.withFeatures fun q => x.features q + u q).px p) = w (x.px p) :=
      hw (x.px p) _
    rw [this]
    show gout p * (((x.px p).valid (List.range x.K)).map fun k => w (x.px p) k *
        (x.features (p.2.1, ((x.px p).idx k).toNat) + u (p.2.1, ((x.px p).idx k).toNat))).sum
      = gout p * (((x.px p).valid (List.range x.K)).map fun k => w (x.px p) k *
        x.features (p.2.1, ((x.px p).idx k).toNat)).sum
      + (((x.px p).valid (List.range x.K)).map _).sum
    rw [← List.sum_map_mul_left, ← List.sum_map_mul_left, ← List.sum_map_add]
    congr 1
    apply List.map_congr_left
    intro k _
    simp only [Function.comp]
    ring
  · intro p hp c hc
    obtain ⟨b, c', j, i⟩ := p
    obtain ⟨h1, h2, h3, h4⟩ := mem_pixels.mp hp
    rw [hG] at hc
    obtain ⟨k, hk, rfl⟩ := List.mem_map.mp hc
    have hk1 := List.mem_range.mp (List.mem_of_mem_filter hk)
    have hk2 := (List.mem_filter.mp hk).2
    have hv : ¬ (x.px (b, c', j, i)).idx k < 0 := by simpa using hk2
    have hv : ¬ x.pidx (b, k, j, i) < 0 := hv
    have := hP b h1 k hk1 j h3 i h4
    show (x.pidx (b, k, j, i)).toNat < P
    omega

theorem weightedSum_gradFeatures (x : In R) (gout : Ix → R) (P : Nat) (hP : x.InRange P)
    (u : Nat × Nat → R) :
    loss wsForward (x.withFeatures fun q => x.features q + u q) gout = loss wsForward x gout
      + ∑ q ∈ Finset.range x.C ×ˢ Finset.range P, (cpuBackward wsBackward x gout).1 q * u q :=
  linear_gradFeatures wsForward wsBackward (fun p => p.al) (fun _ _ => rfl)
    (fun p => wsForward_sum p) (fun _ p => filterMap_valid p _ _) x gout P hP u

/-- **C36 (weighted_sum, CPU = CUDA)** for every launch and every order of atomic additions. -/
theorem weightedSum_cuda {gy bs : Nat} (hg : 0 < gy) (hb : 0 < bs) (x : In R)
    (gout : Ix → R) (cs ca : List (Ix × R)) (cf : List ((Nat × Nat) × R))
    (hs : cs.Perm (fwdContribs wsForwardCuda (pixelsCuda gy bs x.B x.C x.H x.W) x))
    (hf : cf.Perm (gfContribs wsBackwardCuda (pixelsCuda gy bs x.B x.C x.H x.W) x gout))
    (ha : ca.Perm (gaContribs wsBackwardCuda (pixelsCuda gy bs x.B x.C x.H x.W) x gout)) :
    scatterAdd cs = cpuForward wsForward x ∧
    (scatterAdd cf, scatterAdd ca) = cpuBackward wsBackward x gout := by
  refine ⟨cuda_forward_eq hg hb _ _ (fun p => ?_) x cs hs,
    cuda_backward_eq hg hb _ _ (fun g p => ⟨?_, ?_⟩) x gout cf ca hf ha⟩
  · rw [wsForwardCuda, wsForward, filterMap_valid, filterMap_valid]
    apply List.map_congr_left; intros; ring
  · rw [wsBackwardCuda, wsBackward]
    simp only
    congr 1; funext k; rw [mul_comm g]
  · rw [wsBackwardCuda, wsBackward]
    simp only
    congr 1; funext k; rw [mul_comm g]

end Field

/-! ### Normalised sum -/

section Ordered
variable {R : Type*} [Field R] [LinearOrder R]

theorem foldl_valid (p : Px R) (ks : List Nat) (v : Nat → R) (t0 : R) :
    ks.foldl (fun t k => if p.idx k < 0 then t else t + v k) t0
      = t0 + ((p.valid ks).map v).sum := by
  unfold Px.valid
  induction ks generalizing t0 with
  | nil => simp
  | cons k ks ih =>
    rw [List.foldl_cons, ih]
    by_cases h : p.idx k < 0 <;> simp [h, add_assoc]

theorem totalAlpha_eq (eps : R) (p : Px R) :
    totalAlpha eps p = max (p.alphaSum (List.range p.K)) eps := by
  unfold totalAlpha
  rw [foldl_valid, zero_add]
  show (if p.alphaSum _ < eps then eps else p.alphaSum _) = _
  split
  · rename_i h; rw [max_eq_right h.le]
  · rename_i h; rw [max_eq_left (not_lt.mp h)]

theorem totalAlphaFs_eq (p : Px R) : totalAlphaFs p = p.weightedSum (List.range p.K) := by
  unfold totalAlphaFs
  rw [foldl_valid p _ (fun k => p.al k * p.f (p.idx k).toNat), zero_add]; rfl

theorem nwForward_sum (eps : R) (p : Px R) : (nwForward eps p).sum
    = p.weightedSum (List.range p.K) / max (p.alphaSum (List.range p.K)) eps := by
  rw [nwForward, filterMap_valid p (List.range p.K)
    (fun k => p.al k * p.f (p.idx k).toNat / totalAlpha eps p), totalAlpha_eq]
  unfold Px.weightedSum
  rw [div_eq_mul_inv, ← List.sum_map_mul_right]
  congr 1
  apply List.map_congr_left; intros; rw [div_eq_mul_inv]

/-- **C36 (norm_weighted_sum, value).** Weighted sum divided by the total weight or `kEps`,
whichever is larger. -/
theorem normWeightedSum_value (eps : R) (x : In R) {b c j i : Nat} (hb : b < x.B) (hc : c < x.C)
    (hj : j < x.H) (hi : i < x.W) :
    cpuForward (nwForward eps) x (b, c, j, i)
      = (x.px (b, c, j, i)).weightedSum (List.range x.K)
        / max ((x.px (b, c, j, i)).alphaSum (List.range x.K)) eps := by
  rw [cpuForward_apply, if_pos (mem_pixels.mpr ⟨hb, hc, hj, hi⟩), nwForward_sum]; rfl

variable [IsStrictOrderedRing R]

/-- **C36 (norm_weighted_sum, convexity).** With non-negative weights of total at least
`kEps > 0`, the output lies between the smallest and the largest feature involved. -/
theorem normWeightedSum_convex (eps : R) (heps : 0 < eps) (x : In R) {b c j i : Nat}
    (hb : b < x.B) (hc : c < x.C) (hj : j < x.H) (hi : i < x.W) (lo hi' : R)
    (ha : ∀ k < x.K, 0 ≤ x.pidx (b, k, j, i) → 0 ≤ x.alphas (b, k, j, i) ∧
      lo ≤ x.features (c, (x.pidx (b, k, j, i)).toNat) ∧
      x.features (c, (x.pidx (b, k, j, i)).toNat) ≤ hi')
    (htot : eps ≤ (x.px (b, c, j, i)).alphaSum (List.range x.K)) :
    lo ≤ cpuForward (nwForward eps) x (b, c, j, i) ∧
    cpuForward (nwForward eps) x (b, c, j, i) ≤ hi' := by
  rw [normWeightedSum_value eps x hb hc hj hi, max_eq_left htot]
  set p := x.px (b, c, j, i) with hp
  have hpos : 0 < p.alphaSum (List.range x.K) := lt_of_lt_of_le heps htot
  have hk : ∀ k ∈ p.valid (List.range x.K), 0 ≤ p.al k ∧ lo ≤ p.f (p.idx k).toNat ∧
      p.f (p.idx k).toNat ≤ hi' := by
    intro k hk
    have h1 := List.mem_range.mp (List.mem_of_mem_filter hk)
    have h2 : ¬ p.idx k < 0 := by simpa using (List.mem_filter.mp hk).2
    exact ha k h1 (not_lt.mp h2)
  rw [le_div_iff₀ hpos, div_le_iff₀ hpos]
  unfold Px.alphaSum Px.weightedSum
  rw [← List.sum_map_mul_left, ← List.sum_map_mul_left]
  constructor
  · apply List.sum_le_sum
    intro k h
    have := hk k h
    rw [mul_comm]
    exact mul_le_mul_of_nonneg_left this.2.1 this.1
  · apply List.sum_le_sum
    intro k h
    have := hk k h
    rw [mul_comm hi']
    exact mul_le_mul_of_nonneg_left this.2.2 this.1

/-- **C36 (norm_weighted_sum, features).** Exact in every regime. -/
theorem normWeightedSum_gradFeatures (eps : R) (x : In R) (gout : Ix → R) (P : Nat)
    (hP : x.InRange P) (u : Nat × Nat → R) :
    loss (nwForward eps) (x.withFeatures fun q => x.features q + u q) gout
      = loss (nwForward eps) x gout
      + ∑ q ∈ Finset.range x.C ×ˢ Finset.range P,
          (cpuBackward (nwBackward eps) x gout).1 q * u q := by
  apply linear_gradFeatures (nwForward eps) (nwBackward eps)
    (fun p k => p.al k / totalAlpha eps p) (fun _ _ => rfl) ?_ ?_ x gout P hP u
  · intro p
    rw [nwForward, filterMap_valid p (List.range p.K)
      (fun k => p.al k * p.f (p.idx k).toNat / totalAlpha eps p)]
    congr 1
    apply List.map_congr_left; intros; ring
  · intro g p
    rw [nwBackward]
    simp only
    rw [filterMap_valid p (List.range p.K)
      (fun k => ((p.idx k).toNat, g * p.al k / totalAlpha eps p))]
    apply List.map_congr_left; intros; rw [mul_div_assoc]

/-- **C36 (grad_alphas, as computed).** -/
theorem normWeightedSum_gradAlphas (eps : R) (x : In R) (gout : Ix → R) {b t j i : Nat}
    (hb : b < x.B) (ht : t < x.K) (hj : j < x.H) (hi : i < x.W)
    (hv : 0 ≤ x.pidx (b, t, j, i)) :
    (cpuBackward (nwBackward eps) x gout).2 (b, t, j, i)
      = ((List.range x.C).map fun c =>
          let p := x.px (b, c, j, i)
          let A := max (p.alphaSum (List.range x.K)) eps
          gout (b, c, j, i) * ((p.f (p.idx t).toNat * A - p.weightedSum (List.range x.K))
            / (A * A))).sum := by
  rw [gradAlphas_apply _ _ _ hb hj hi]
  congr 1
  apply List.map_congr_left
  intro c _
  rw [nwBackward]
  simp only
  set p := x.px (b, c, j, i) with hp
  rw [inner_eq p p.K (fun k => gout (b, c, j, i) * (p.f (p.idx k).toNat * totalAlpha eps p
    - totalAlphaFs p) / (totalAlpha eps p * totalAlpha eps p)),
    scatterAdd_map_valid (p.valid (List.range p.K)) (List.nodup_range.filter _)
      (fun k => gout (b, c, j, i) * (p.f (p.idx k).toNat * totalAlpha eps p
    - totalAlphaFs p) / (totalAlpha eps p * totalAlpha eps p)), if_pos, totalAlpha_eq,
    totalAlphaFs_eq, mul_div_assoc]
  · rfl
  · have : ¬ p.idx t < 0 := not_lt.mpr hv
    simp only [Px.valid, List.mem_filter, List.mem_range, this, decide_false, Bool.not_false, and_true]
    exact ht

theorem valid_range_split (p : Px R) {t : Nat} (ht : t < p.K) (hv : ¬ p.idx t < 0) :
    p.valid (List.range p.K) = p.valid (List.range t) ++ t ::
      p.valid ((List.range (p.K - (t + 1))).map (t + 1 + ·)) := by
  have hsp : List.range p.K
      = List.range t ++ ([t] ++ (List.range (p.K - (t + 1))).map (t + 1 + ·)) := by
    rw [← List.append_assoc, ← List.range_succ, ← List.range_add]
    congr 1; omega
  rw [hsp, valid_append, valid_append]
  simp [Px.valid, hv]

theorem sums_update (p : Px R) {t : Nat} (ht : t < p.K) (hv : ¬ p.idx t < 0) (a : R) :
    let q : Px R := { p with al := Function.update p.al t a }
    q.alphaSum (List.range p.K) = p.alphaSum (List.range p.K) + (a - p.al t) ∧
    q.weightedSum (List.range p.K)
      = p.weightedSum (List.range p.K) + (a - p.al t) * p.f (p.idx t).toNat := by
  intro q
  have e1 := valid_range_split p ht hv
  have hq : q.valid (List.range p.K) = p.valid (List.range p.K) := rfl
  have n1 : ∀ k ∈ p.valid (List.range t), k ≠ t := by
    intro k hk e; subst e
    exact absurd (List.mem_range.mp (List.mem_of_mem_filter hk)) (lt_irrefl _)
  have n2 : ∀ k ∈ p.valid ((List.range (p.K - (t + 1))).map (t + 1 + ·)), k ≠ t := by
    intro k hk e; subst e
    obtain ⟨m, _, hm⟩ := List.mem_map.mp (List.mem_of_mem_filter hk)
    omega
  have key : ∀ f : Nat → R, ((p.valid (List.range p.K)).map
      fun k => Function.update p.al t a k * f k).sum
      = ((p.valid (List.range p.K)).map fun k => p.al k * f k).sum + (a - p.al t) * f t := by
    intro f
    rw [e1]
    simp only [List.map_append, List.sum_append, List.map_cons, List.sum_cons,
      Function.update_self]
    rw [List.map_congr_left (g := fun k => p.al k * f k)
        (fun k hk => by rw [Function.update_of_ne (n1 k hk)]),
      List.map_congr_left (l := p.valid ((List.range (p.K - (t + 1))).map (t + 1 + ·)))
        (g := fun k => p.al k * f k) (fun k hk => by rw [Function.update_of_ne (n2 k hk)])]
    ring
  constructor
  · have := key fun _ => 1
    simp only [mul_one] at this
    exact this
  · exact key fun k => p.f (p.idx k).toNat

/-- **C36 (norm_weighted_sum, CPU = CUDA)** for every launch and every order of atomic
additions. -/
theorem normWeightedSum_cuda {gy bs : Nat} (hg : 0 < gy) (hb : 0 < bs) (eps : R) (x : In R)
    (gout : Ix → R) (cs ca : List (Ix × R)) (cf : List ((Nat × Nat) × R))
    (hs : cs.Perm (fwdContribs (nwForwardCuda eps) (pixelsCuda gy bs x.B x.C x.H x.W) x))
    (hf : cf.Perm (gfContribs (nwBackwardCuda eps) (pixelsCuda gy bs x.B x.C x.H x.W) x gout))
    (ha : ca.Perm (gaContribs (nwBackwardCuda eps) (pixelsCuda gy bs x.B x.C x.H x.W) x gout)) :
    scatterAdd cs = cpuForward (nwForward eps) x ∧
    (scatterAdd cf, scatterAdd ca) = cpuBackward (nwBackward eps) x gout := by
  refine ⟨cuda_forward_eq hg hb _ _ (fun p => ?_) x cs hs,
    cuda_backward_eq hg hb _ _ (fun g p => ⟨?_, ?_⟩) x gout cf ca hf ha⟩
  · rw [nwForwardCuda, nwForward]
    congr 1; funext k; rw [mul_comm]
  · rw [nwBackwardCuda, nwBackward]
    simp only
    congr 1; funext k; rw [mul_comm g, mul_div_right_comm]
  · rw [nwBackwardCuda, nwBackward]
    simp only
    congr 1; funext k; rw [mul_comm g]

end Ordered

/-! ### Derivative in the weights -/

theorem hasDerivAt_list_sum {α : Type*} (l : List α) (f : α → ℝ → ℝ) (f' : α → ℝ) (x : ℝ)
    (h : ∀ a ∈ l, HasDerivAt (f a) (f' a) x) :
    HasDerivAt (fun y => (l.map fun a => f a y).sum) (l.map f').sum x := by
  induction l with
  | nil => simpa using hasDerivAt_const x (0 : ℝ)
  | cons a l ih =>
    simp only [List.map_cons, List.sum_cons]
    exact (h a (by simp)).add (ih fun b hb => h b (by simp [hb]))

/-- One pixel: derivative of the normalised sum in one weight, above the threshold. -/
theorem nw_pixel_deriv (eps : ℝ) (heps : 0 < eps) (p : Px ℝ) {t : Nat} (ht : t < p.K)
    (hv : ¬ p.idx t < 0) (htot : eps < p.alphaSum (List.range p.K)) :
    HasDerivAt (fun a => (nwForward eps { p with al := Function.update p.al t a }).sum)
      ((p.f (p.idx t).toNat * p.alphaSum (List.range p.K) - p.weightedSum (List.range p.K))
        / (p.alphaSum (List.range p.K) * p.alphaSum (List.range p.K))) (p.al t) := by
  set A := p.alphaSum (List.range p.K) with hA
  set N := p.weightedSum (List.range p.K) with hN
  have e : ∀ a, (nwForward eps { p with al := Function.update p.al t a }).sum
      = (N + (a - p.al t) * p.f (p.idx t).toNat) / max (A + (a - p.al t)) eps := by
    intro a
    have h1 := (sums_update p ht hv a).1
    have h2 := (sums_update p ht hv a).2
    rw [nwForward_sum]
    simp only at h1 h2 ⊢
    rw [h1, h2]
  have hA0 : A ≠ 0 := by intro h; linarith
  have d1 : HasDerivAt (fun a => N + (a - p.al t) * p.f (p.idx t).toNat)
      (p.f (p.idx t).toNat) (p.al t) := by
    have := (((hasDerivAt_id (p.al t)).sub_const (p.al t)).mul_const
      (p.f (p.idx t).toNat)).const_add N
    simpa using this
  have d2 : HasDerivAt (fun a => A + (a - p.al t)) 1 (p.al t) := by
    have := ((hasDerivAt_id (p.al t)).sub_const (p.al t)).const_add A
    simpa using this
  have d3 := d1.div d2 (by simpa using hA0)
  have hev : (fun a => (nwForward eps { p with al := Function.update p.al t a }).sum)
      =ᶠ[nhds (p.al t)] (fun a => N + (a - p.al t) * p.f (p.idx t).toNat)
        / (fun a => A + (a - p.al t)) := by
    have hcont : Filter.Tendsto (fun a => A + (a - p.al t)) (nhds (p.al t)) (nhds A) := by
      have := d2.continuousAt.tendsto
      simpa using this
    filter_upwards [hcont.eventually (lt_mem_nhds htot)] with a ha
    rw [e a, max_eq_left ha.le]; rfl
  refine (d3.congr_of_eventuallyEq hev).congr_deriv ?_
  simp only [sub_self, add_zero, zero_mul]
  rw [mul_one, sq]

/-- **C36 (norm_weighted_sum, weights).** Where the total weight of a pixel exceeds `kEps`, the
returned `grad_alphas` entry is the derivative of the loss with respect to that weight. -/
theorem normWeightedSum_gradAlphas_deriv (eps : ℝ) (heps : 0 < eps) (x : In ℝ) (gout : Ix → ℝ)
    {b t j i : Nat} (hb : b < x.B) (ht : t < x.K) (hj : j < x.H) (hi : i < x.W)
    (hv : 0 ≤ x.pidx (b, t, j, i))
    (htot : eps < (x.px (b, 0, j, i)).alphaSum (List.range x.K)) :
    HasDerivAt (fun a => loss (nwForward eps) (x.setAlpha (b, t, j, i) a) gout)
      ((cpuBackward (nwBackward eps) x gout).2 (b, t, j, i)) (x.alphas (b, t, j, i)) := by
  have hl : (fun a => loss (nwForward eps) (x.setAlpha (b, t, j, i) a) gout)
      = fun a => loss (nwForward eps) x gout + ((List.range x.C).map fun c => gout (b, c, j, i) *
          ((nwForward eps ((x.setAlpha (b, t, j, i) a).px (b, c, j, i))).sum
            - (nwForward eps (x.px (b, c, j, i))).sum)).sum := by
    funext a
    exact loss_setAlpha _ _ _ _ hb hj hi
  rw [hl, normWeightedSum_gradAlphas eps x gout hb ht hj hi hv]
  apply HasDerivAt.const_add
  apply hasDerivAt_list_sum
  intro c _
  simp only [setAlpha_px_same]
  set p := x.px (b, c, j, i) with hp
  have htot' : eps < p.alphaSum (List.range x.K) := htot
  have := nw_pixel_deriv eps heps p (t := t) ht (not_lt.mpr hv) htot'
  rw [max_eq_left htot'.le]
  exact (this.sub_const _).const_mul _

/-- One pixel below the threshold: the denominator is constant. -/
theorem nw_pixel_deriv_below (eps : ℝ) (p : Px ℝ) {t : Nat} (ht : t < p.K)
    (hv : ¬ p.idx t < 0) (htot : p.alphaSum (List.range p.K) < eps) :
    HasDerivAt (fun a => (nwForward eps { p with al := Function.update p.al t a }).sum)
      (p.f (p.idx t).toNat / eps) (p.al t) := by
  set A := p.alphaSum (List.range p.K) with hA
  set N := p.weightedSum (List.range p.K) with hN
  have d2 : HasDerivAt (fun a => A + (a - p.al t)) 1 (p.al t) := by
    have := ((hasDerivAt_id (p.al t)).sub_const (p.al t)).const_add A
    simpa using this
  have d1 : HasDerivAt (fun a => (N + (a - p.al t) * p.f (p.idx t).toNat) / eps)
      (p.f (p.idx t).toNat / eps) (p.al t) := by
    have := ((((hasDerivAt_id (p.al t)).sub_const (p.al t)).mul_const
      (p.f (p.idx t).toNat)).const_add N).div_const eps
    simpa using this
  refine d1.congr_of_eventuallyEq ?_
  have hcont : Filter.Tendsto (fun a => A + (a - p.al t)) (nhds (p.al t)) (nhds A) := by
    have := d2.continuousAt.tendsto
    simpa using this
  filter_upwards [hcont.eventually (gt_mem_nhds htot)] with a ha
  have h1 := (sums_update p ht hv a).1
  have h2 := (sums_update p ht hv a).2
  rw [nwForward_sum]
  simp only at h1 h2 ⊢
  rw [h1, h2, max_eq_right ha.le]

/-- **C36 (norm_weighted_sum, weights, below the threshold).** Where the total weight is below
`kEps`, `grad_alphas` misses the derivative by exactly `∑_c g * N / kEps²`, `N` being the weighted
sum: it is wrong as soon as that is not zero. -/
theorem normWeightedSum_gradAlphas_below (eps : ℝ) (heps : 0 < eps) (x : In ℝ) (gout : Ix → ℝ)
    {b t j i : Nat} (hb : b < x.B) (ht : t < x.K) (hj : j < x.H) (hi : i < x.W)
    (hv : 0 ≤ x.pidx (b, t, j, i))
    (htot : (x.px (b, 0, j, i)).alphaSum (List.range x.K) < eps) :
    HasDerivAt (fun a => loss (nwForward eps) (x.setAlpha (b, t, j, i) a) gout)
      ((cpuBackward (nwBackward eps) x gout).2 (b, t, j, i)
        + ((List.range x.C).map fun c => gout (b, c, j, i) *
            ((x.px (b, c, j, i)).weightedSum (List.range x.K) / (eps * eps))).sum)
      (x.alphas (b, t, j, i)) := by
  have hl : (fun a => loss (nwForward eps) (x.setAlpha (b, t, j, i) a) gout)
      = fun a => loss (nwForward eps) x gout + ((List.range x.C).map fun c => gout (b, c, j, i) *
          ((nwForward eps ((x.setAlpha (b, t, j, i) a).px (b, c, j, i))).sum
            - (nwForward eps (x.px (b, c, j, i))).sum)).sum := by
    funext a
    exact loss_setAlpha _ _ _ _ hb hj hi
  rw [hl, normWeightedSum_gradAlphas eps x gout hb ht hj hi hv, ← List.sum_map_add]
  apply HasDerivAt.const_add
  apply hasDerivAt_list_sum
  intro c _
  simp only [setAlpha_px_same]
  set p := x.px (b, c, j, i) with hp
  have htot' : p.alphaSum (List.range x.K) < eps := htot
  have := nw_pixel_deriv_below eps p (t := t) ht (not_lt.mpr hv) htot'
  rw [max_eq_right htot'.le]
  refine ((this.sub_const _).const_mul (gout (b, c, j, i))).congr_deriv ?_
  field_simp
  ring

/-! ### Concrete cases -/

example : cpuForward wsForward exIn (0, 0, 0, 0) = 5 := by decide +kernel
example : cpuForward (nwForward (1/10000)) exIn (0, 0, 0, 0) = 20/3 := by decide +kernel
example : (cpuBackward wsBackward exIn fun _ => 1).2 (0, 0, 0, 0) = 9 := by decide +kernel
/-- Below the threshold (here `kEps = 1`): derivative `(8 + 1)/1`, computed `(8 - 5) + (1 - 3/4)`. -/
example : (cpuBackward (nwBackward 1) exIn fun _ => 1).2 (0, 0, 0, 0) = 13/4 := by decide +kernel
example : (cpuBackward (nwBackward (1/10000)) exIn fun _ => 1).2 (0, 0, 0, 0) = 16/9 := by
  decide +kernel
example : (exIn.px (0, 0, 0, 0)).alphaSum (List.range 3) = 3/4 := by decide +kernel

end P3D.Compositing
