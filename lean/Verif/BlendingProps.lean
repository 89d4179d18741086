/-
C37: sigmoid and softmax blending.
-/
import Verif.Blending
import Verif.Scatter
import Mathlib.Analysis.Calculus.Deriv.Inv
import Mathlib.Analysis.Calculus.Deriv.Mul
import Mathlib.Analysis.SpecialFunctions.ExpDeriv
import Mathlib.Data.List.Induction
import Mathlib.Tactic.Linarith
import Mathlib.Tactic.Positivity
import Mathlib.Tactic.FieldSimp

set_option linter.unusedSectionVars false

namespace P3D.Blending
open P3D.Store P3D.Chunks P3D.Scatter

noncomputable section

/-! ### Silhouette alpha: specification -/

/-- Probability that a face at signed distance `d` covers the pixel (large inside, `d < 0`). -/
def coverProb (sigma d : ℝ) : ℝ := (1 + Real.exp (d / sigma))⁻¹

/-- Probability that at least one of several independent faces covers the pixel. -/
def coverage (sigma : ℝ) (ds : List ℝ) : ℝ := 1 - (ds.map fun d => 1 - coverProb sigma d).prod

theorem prob_eq (sigma d : ℝ) : prob sigma d = coverProb sigma d := by
  unfold prob coverProb
  rw [one_div]; congr 3; ring

theorem coverProb_mem (sigma d : ℝ) : 0 < coverProb sigma d ∧ coverProb sigma d < 1 := by
  unfold coverProb
  have := Real.exp_pos (d / sigma)
  exact ⟨by positivity, inv_lt_one_of_one_lt₀ (by linarith)⟩

/-- Distances of the slots that hold a face. -/
def validDists (K : Nat) (face : Nat → Int) (dist : Nat → ℝ) : List ℝ :=
  ((List.range K).filter fun k => !decide (face k < 0)).map dist

theorem foldl_skip (l : List Nat) (face : Nat → Int) (v : Nat → ℝ) (a : ℝ) :
    l.foldl (fun alpha k => if face k < 0 then alpha else alpha * v k) a
      = a * ((l.filter fun k => !decide (face k < 0)).map v).prod := by
  induction l generalizing a with
  | nil => simp
  | cons k l ih =>
    rw [List.foldl_cons, ih]
    by_cases h : face k < 0 <;> simp [h, mul_assoc]

theorem sigmoidPixel_eq (sigma : ℝ) (K : Nat) (face : Nat → Int) (dist : Nat → ℝ) :
    sigmoidPixel sigma K face dist = coverage sigma (validDists K face dist) := by
  unfold sigmoidPixel coverage validDists
  rw [foldl_skip _ face fun k => 1 - prob sigma (dist k)]
  simp only [prob_eq, one_mul, List.map_map, Function.comp_def]

theorem mem_pixels {N H W n h w : Nat} :
    (n, h, w) ∈ pixels N H W ↔ n < N ∧ h < H ∧ w < W := by
  simp only [pixels, List.mem_flatMap, List.mem_range, List.mem_map, Prod.mk.injEq]
  constructor
  · rintro ⟨_, h1, _, h2, _, h3, rfl, rfl, rfl⟩; exact ⟨h1, h2, h3⟩
  · rintro ⟨h1, h2, h3⟩; exact ⟨n, h1, h, h2, w, h3, rfl, rfl, rfl⟩

theorem forwardCpu_apply (x : In) (sigma : ℝ) (init : Ix3 → ℝ) (q : Ix3) :
    forwardCpu x sigma init q = if q ∈ pixels x.N x.H x.W then x.pixel sigma q else init q := by
  rw [forwardCpu, storeAll_fn init (x.pixel sigma)]
  · simp [Function.comp_def]
  · intro w hw; obtain ⟨q, _, rfl⟩ := List.mem_map.mp hw; rfl

/-- **C37 (silhouette, value).** Every pixel of the (uninitialised) output is written, with the
probability that at least one of the faces in its slots covers it; padding is ignored. -/
theorem sigmoid_value (x : In) (sigma : ℝ) (init : Ix3 → ℝ) {n h w : Nat} (hn : n < x.N)
    (hh : h < x.H) (hw : w < x.W) :
    forwardCpu x sigma init (n, h, w)
      = coverage sigma (validDists x.K (fun k => x.face (n, h, w, k))
          (fun k => x.dist (n, h, w, k))) := by
  rw [forwardCpu_apply, if_pos (mem_pixels.mpr ⟨hn, hh, hw⟩), In.pixel, sigmoidPixel_eq]

theorem prod_pos_le (sigma : ℝ) (ds : List ℝ) :
    0 < (ds.map fun d => 1 - coverProb sigma d).prod ∧
    (ds.map fun d => 1 - coverProb sigma d).prod ≤ 1 := by
  induction ds with
  | nil => simp
  | cons d ds ih =>
    have := coverProb_mem sigma d
    simp only [List.map_cons, List.prod_cons]
    exact ⟨mul_pos (by linarith) ih.1, mul_le_one₀ (by linarith) ih.1.le ih.2⟩

/-- **C37 (silhouette, range).** -/
theorem coverage_mem (sigma : ℝ) (ds : List ℝ) : 0 ≤ coverage sigma ds ∧ coverage sigma ds < 1 := by
  have := prod_pos_le sigma ds
  unfold coverage
  constructor <;> linarith

/-- **C37 (silhouette, monotone).** One more face makes the pixel more opaque. -/
theorem coverage_cons_lt (sigma d : ℝ) (ds : List ℝ) :
    coverage sigma ds < coverage sigma (d :: ds) := by
  have h1 := prod_pos_le sigma ds
  have h2 := coverProb_mem sigma d
  unfold coverage
  simp only [List.map_cons, List.prod_cons]
  nlinarith [h1.1, h2.1]

/-- **C37 (silhouette, order).** The order of the faces does not matter. -/
theorem coverage_perm (sigma : ℝ) {ds ds' : List ℝ} (h : ds.Perm ds') :
    coverage sigma ds = coverage sigma ds' := by
  unfold coverage; rw [(h.map _).prod_eq]

/-- **C37 (silhouette, distance).** A face closer to (or deeper around) the pixel makes it more
opaque. -/
theorem coverage_lt_of_lt {sigma : ℝ} (hs : 0 < sigma) {d d' : ℝ} (h : d < d') (ds : List ℝ) :
    coverage sigma (d' :: ds) < coverage sigma (d :: ds) := by
  have h1 := prod_pos_le sigma ds
  have h2 : coverProb sigma d' < coverProb sigma d := by
    unfold coverProb
    have e : Real.exp (d / sigma) < Real.exp (d' / sigma) :=
      Real.exp_lt_exp.mpr ((div_lt_div_iff_of_pos_right hs).mpr h)
    have := Real.exp_pos (d / sigma)
    exact inv_strictAnti₀ (by linarith) (by linarith)
  unfold coverage
  simp only [List.map_cons, List.prod_cons]
  nlinarith [h1.1]

/-! ### CPU and CUDA -/

theorem mem_pixelsCuda {grid block N H W : Nat} (hg : 0 < grid) (hb : 0 < block) (q : Ix3) :
    q ∈ pixelsCuda grid block N H W ↔ q ∈ pixels N H W := by
  obtain ⟨n, h, w⟩ := q
  rw [mem_pixels]
  simp only [pixelsCuda, List.mem_map, (gridStride_perm hg hb _).mem_iff, List.mem_range,
    Prod.mk.injEq]
  constructor
  · rintro ⟨t, ht, rfl, rfl, rfl⟩
    have hHW : 0 < H * W := by
      rcases Nat.eq_zero_or_pos (H * W) with h0 | h0
      · rw [Nat.mul_assoc, h0] at ht; omega
      · exact h0
    have hW : 0 < W := Nat.pos_of_mul_pos_left hHW
    refine ⟨?_, ?_, Nat.mod_lt _ hW⟩
    · rw [Nat.div_lt_iff_lt_mul hHW, ← Nat.mul_assoc]; exact ht
    · rw [Nat.div_lt_iff_lt_mul hW]; exact Nat.mod_lt _ hHW
  · rintro ⟨hn, hh, hw⟩
    have e1 : h * W + w < H * W := by
      calc h * W + w < h * W + W := by omega
        _ = (h + 1) * W := by rw [Nat.add_mul, Nat.one_mul]
        _ ≤ H * W := Nat.mul_le_mul_right _ hh
    refine ⟨n * (H * W) + (h * W + w), ?_, ?_, ?_, ?_⟩
    · calc n * (H * W) + (h * W + w) < n * (H * W) + H * W := by omega
        _ = (n + 1) * (H * W) := by rw [Nat.add_mul, Nat.one_mul]
        _ ≤ N * (H * W) := Nat.mul_le_mul_right _ hn
        _ = N * H * W := (Nat.mul_assoc _ _ _).symm
    · exact div_decode e1
    · rw [mod_decode e1, div_decode hw]
    · rw [mod_decode e1, mod_decode hw]

/-- **C37 (silhouette, CPU = CUDA).** For every launch configuration and every order of the
stores, the CUDA output is the CPU output. -/
theorem sigmoid_cuda {grid block : Nat} (hg : 0 < grid) (hb : 0 < block) (x : In) (sigma : ℝ)
    (init : Ix3 → ℝ) (ws : List (Ix3 × ℝ))
    (hws : ws.Perm (forwardCudaStores grid block x sigma)) :
    storeAll init ws = forwardCpu x sigma init := by
  apply storeAll_eq init (x.pixel sigma)
  · intro w hw
    obtain ⟨q, _, rfl⟩ := List.mem_map.mp (hws.mem_iff.mp hw); rfl
  · intro w hw; obtain ⟨q, _, rfl⟩ := List.mem_map.mp hw; rfl
  · intro q
    rw [(hws.map Prod.fst).mem_iff, forwardCudaStores]
    simp only [List.map_map, Function.comp_def, List.map_id']
    exact mem_pixelsCuda hg hb q

theorem backwardCpu_apply (x : In) (sigma : ℝ) (ga al : Ix3 → ℝ) {n h w k : Nat} :
    backwardCpu x sigma ga al (n, h, w, k)
      = if (n < x.N ∧ h < x.H ∧ w < x.W) ∧ k < x.K ∧ ¬ x.face (n, h, w, k) < 0
        then x.gradEntry sigma ga al (n, h, w, k) else 0 := by
  rw [backwardCpu, storeAll_fn _ (x.gradEntry sigma ga al)]
  · congr 1
    simp only [List.mem_map, List.mem_flatMap, List.mem_filterMap, List.mem_range, eq_iff_iff]
    constructor
    · rintro ⟨_, ⟨⟨n', h', w'⟩, hq, k', hk, hc⟩, e⟩
      split at hc
      · simp at hc
      · rename_i hf
        simp only [Option.some.injEq] at hc
        subst hc
        simp only [Prod.mk.injEq] at e
        obtain ⟨rfl, rfl, rfl, rfl⟩ := e
        exact ⟨mem_pixels.mp hq, hk, hf⟩
    · rintro ⟨h1, h2, h3⟩
      exact ⟨_, ⟨(n, h, w), mem_pixels.mpr h1, k, h2, if_neg h3⟩, rfl⟩
  · intro q hq
    simp only [List.mem_flatMap, List.mem_filterMap] at hq
    obtain ⟨_, _, _, _, hc⟩ := hq
    split at hc
    · simp at hc
    · simp only [Option.some.injEq] at hc; rw [← hc]

/-- **C37 (silhouette backward, CPU = CUDA).** -/
theorem sigmoid_backward_cuda {gy bs : Nat} (hg : 0 < gy) (hb : 0 < bs) (x : In) (sigma : ℝ)
    (ga al : Ix3 → ℝ) (ws : List (Ix4 × ℝ))
    (hws : ws.Perm (backwardCudaStores gy bs x sigma ga al)) :
    storeAll (fun _ => 0) ws = backwardCpu x sigma ga al := by
  funext ⟨n, h, w, k⟩
  rw [storeAll_fn _ (x.gradEntry sigma ga al), backwardCpu_apply]
  · congr 1
    rw [(hws.map Prod.fst).mem_iff, eq_iff_iff]
    simp only [backwardCudaStores, List.mem_map, List.mem_flatMap, List.mem_filterMap,
      List.mem_range, (gridStride_perm hg hb _).mem_iff]
    constructor
    · rintro ⟨_, ⟨n', hn', t, ht, hc⟩, e⟩
      split at hc
      · rename_i hf
        simp only [Option.some.injEq] at hc
        subst hc
        simp only [Prod.mk.injEq] at e
        obtain ⟨rfl, rfl, rfl, rfl⟩ := e
        have hWK : 0 < x.W * x.K := by
          rcases Nat.eq_zero_or_pos (x.W * x.K) with h0 | h0
          · rw [Nat.mul_assoc, h0] at ht; omega
          · exact h0
        have hK : 0 < x.K := Nat.pos_of_mul_pos_left hWK
        refine ⟨⟨hn', ?_, ?_⟩, Nat.mod_lt _ hK, not_lt.mpr hf⟩
        · rw [Nat.div_lt_iff_lt_mul hWK, ← Nat.mul_assoc]; exact ht
        · rw [Nat.div_lt_iff_lt_mul hK]; exact Nat.mod_lt _ hWK
      · simp at hc
    · rintro ⟨⟨hn, hh, hw⟩, hk, hf⟩
      have e1 : w * x.K + k < x.W * x.K := by
        calc w * x.K + k < w * x.K + x.K := by omega
          _ = (w + 1) * x.K := by rw [Nat.add_mul, Nat.one_mul]
          _ ≤ x.W * x.K := Nat.mul_le_mul_right _ hw
      refine ⟨((n, h, w, k), x.gradEntry sigma ga al (n, h, w, k)),
        ⟨n, hn, h * (x.W * x.K) + (w * x.K + k), ?_, ?_⟩, rfl⟩
      · calc h * (x.W * x.K) + (w * x.K + k) < h * (x.W * x.K) + x.W * x.K := by omega
          _ = (h + 1) * (x.W * x.K) := by rw [Nat.add_mul, Nat.one_mul]
          _ ≤ x.H * (x.W * x.K) := Nat.mul_le_mul_right _ hh
          _ = x.H * x.W * x.K := (Nat.mul_assoc _ _ _).symm
      · rw [div_decode e1, mod_decode e1, div_decode hk, mod_decode hk]
        exact if_pos (not_lt.mp hf)
  · intro q hq
    have hq := hws.mem_iff.mp hq
    simp only [backwardCudaStores, List.mem_flatMap, List.mem_filterMap] at hq
    obtain ⟨_, _, _, _, hc⟩ := hq
    split at hc
    · simp only [Option.some.injEq] at hc; rw [← hc]
    · simp at hc

/-! ### Backward is the derivative -/

theorem hasDerivAt_coverProb (sigma d : ℝ) (hs : sigma ≠ 0) :
    HasDerivAt (coverProb sigma) (-(1 / sigma) * coverProb sigma d * (1 - coverProb sigma d)) d := by
  have h1 : HasDerivAt (fun d => 1 + Real.exp (d / sigma)) (Real.exp (d / sigma) * (1 / sigma)) d := by
    have := ((hasDerivAt_id d).div_const sigma).exp.const_add 1
    simpa using this
  have hne : 1 + Real.exp (d / sigma) ≠ 0 := by
    have := Real.exp_pos (d / sigma); positivity
  refine (h1.inv hne).congr_deriv ?_
  unfold coverProb
  field_simp
  ring

/-- The silhouette at a pixel as a function of the distance in one slot. -/
theorem hasDerivAt_sigmoidPixel (sigma : ℝ) (hs : sigma ≠ 0) (K : Nat) (face : Nat → Int)
    (dist : Nat → ℝ) {k : Nat} (hk : k < K) (hf : ¬ face k < 0) :
    HasDerivAt (fun d => sigmoidPixel sigma K face (Function.update dist k d))
      (-1 / sigma * prob sigma (dist k) * (1 - sigmoidPixel sigma K face dist)) (dist k) := by
  have hsp : (List.range K).filter (fun k => !decide (face k < 0))
      = (List.range k).filter (fun k => !decide (face k < 0)) ++ k ::
        ((List.range (K - (k + 1))).map (k + 1 + ·)).filter (fun k => !decide (face k < 0)) := by
    have : List.range K
        = List.range k ++ ([k] ++ (List.range (K - (k + 1))).map (k + 1 + ·)) := by
      rw [← List.append_assoc, ← List.range_succ, ← List.range_add]
      congr 1; omega
    rw [this, List.filter_append, List.filter_append]
    simp [hf]
  set A := (List.range k).filter (fun k => !decide (face k < 0)) with hA
  set B := ((List.range (K - (k + 1))).map (k + 1 + ·)).filter (fun k => !decide (face k < 0))
    with hB
  have nA : ∀ m ∈ A, m ≠ k := by
    intro m hm e
    have := List.mem_range.mp (List.mem_of_mem_filter hm); omega
  have nB : ∀ m ∈ B, m ≠ k := by
    intro m hm e
    obtain ⟨r, _, hr⟩ := List.mem_map.mp (List.mem_of_mem_filter hm); omega
  set T := (A.map fun m => 1 - coverProb sigma (dist m)).prod *
    (B.map fun m => 1 - coverProb sigma (dist m)).prod with hT
  have e : ∀ d, sigmoidPixel sigma K face (Function.update dist k d)
      = 1 - T * (1 - coverProb sigma d) := by
    intro d
    rw [sigmoidPixel_eq, coverage, validDists, hsp]
    simp only [List.map_append, List.map_cons, List.map_map, List.prod_append, List.prod_cons,
      Function.update_self, Function.comp_def]
    rw [List.map_congr_left (l := A) (g := fun m => 1 - coverProb sigma (dist m))
        (fun m hm => by rw [Function.update_of_ne (nA m hm)]),
      List.map_congr_left (l := B) (g := fun m => 1 - coverProb sigma (dist m))
        (fun m hm => by rw [Function.update_of_ne (nB m hm)])]
    rw [hT]; ring
  have e0 := e (dist k)
  rw [Function.update_eq_self] at e0
  have hfun : (fun d => sigmoidPixel sigma K face (Function.update dist k d))
      = fun d => 1 - T * (1 - coverProb sigma d) := funext e
  rw [hfun, e0, prob_eq]
  have := (((hasDerivAt_coverProb sigma (dist k) hs).const_sub 1).const_mul T).const_sub 1
  refine this.congr_deriv ?_
  ring

/-- The loss `∑ g * alphas`. -/
def lossOf (x : In) (sigma : ℝ) (g : Ix3 → ℝ) : ℝ :=
  ((pixels x.N x.H x.W).map fun q => g q * x.pixel sigma q).sum

def In.setDist (x : In) (q : Ix4) (d : ℝ) : In := { x with dist := Function.update x.dist q d }

theorem nodup_pixels (N H W : Nat) : (pixels N H W).Nodup := by
  have aux : ∀ {α : Type} (n : Nat) (f : Nat → List α) , (∀ k < n, (f k).Nodup) →
      (∀ a b x, x ∈ f a → x ∈ f b → a = b) → ((List.range n).flatMap f).Nodup := by
    intro α n f h1 h2
    rw [List.nodup_flatMap]
    refine ⟨fun k hk => h1 k (List.mem_range.mp hk), ?_⟩
    apply List.nodup_range.pairwise_of_forall_ne
    intro a _ b _ hab x hx hy
    exact hab (h2 a b x hx hy)
  unfold pixels
  refine aux _ _ (fun b _ => aux _ _ (fun c _ => ?_) ?_) ?_
  · exact List.nodup_range.map (fun a b h => by simpa using h)
  · intro a b x hx hy
    simp only [List.mem_map] at hx hy
    obtain ⟨_, _, rfl⟩ := hx; obtain ⟨_, _, h⟩ := hy
    simp only [Prod.mk.injEq] at h; exact h.2.1.symm
  · intro a b x hx hy
    simp only [List.mem_flatMap, List.mem_map] at hx hy
    obtain ⟨_, _, _, _, rfl⟩ := hx; obtain ⟨_, _, _, _, h⟩ := hy
    simp only [Prod.mk.injEq] at h; exact h.1.symm

theorem hasDerivAt_sum_single {α : Type*} (l : List α) (hl : l.Nodup) (a0 : α) (ha : a0 ∈ l)
    (f : α → ℝ → ℝ) (f' x : ℝ) (h0 : HasDerivAt (f a0) f' x)
    (h : ∀ a ∈ l, a ≠ a0 → ∀ y y', f a y = f a y') :
    HasDerivAt (fun y => (l.map fun a => f a y).sum) f' x := by
  induction l with
  | nil => simp at ha
  | cons b l ih =>
    rw [List.nodup_cons] at hl
    simp only [List.map_cons, List.sum_cons]
    by_cases hb : b = a0
    · subst hb
      have hc : ∀ y, (l.map fun a => f a y).sum = (l.map fun a => f a x).sum := by
        intro y
        congr 1
        apply List.map_congr_left
        intro a ha'
        exact h a (by simp [ha']) (fun e => hl.1 (e ▸ ha')) y x
      have : (fun y => f b y + (l.map fun a => f a y).sum)
          = fun y => f b y + (l.map fun a => f a x).sum := by
        funext y; rw [hc y]
      rw [this]
      exact h0.add_const _
    · have hm : a0 ∈ l := by
        rcases List.mem_cons.mp ha with e | e
        · exact absurd e.symm hb
        · exact e
      have hc : (fun y => f b y + (l.map fun a => f a y).sum)
          = fun y => f b x + (l.map fun a => f a y).sum := by
        funext y; rw [h b (by simp) hb y x]
      rw [hc]
      exact (ih hl.2 hm fun a ha' => h a (by simp [ha'])).const_add _

/-- **C37 (silhouette gradient).** With `alphas` from the forward pass, every entry of the returned
`grad_distances` is the derivative of `∑ grad_alphas * alphas` with respect to that distance
(0 for padded slots, which have no influence). -/
theorem sigmoid_backward_deriv (x : In) (sigma : ℝ) (hs : sigma ≠ 0) (g init : Ix3 → ℝ)
    {n h w k : Nat} (hn : n < x.N) (hh : h < x.H) (hw : w < x.W) (hk : k < x.K) :
    HasDerivAt (fun d => lossOf (x.setDist (n, h, w, k) d) sigma g)
      (backwardCpu x sigma g (forwardCpu x sigma init) (n, h, w, k)) (x.dist (n, h, w, k)) := by
  have hmem : (n, h, w) ∈ pixels x.N x.H x.W := mem_pixels.mpr ⟨hn, hh, hw⟩
  unfold lossOf
  show HasDerivAt (fun d => ((pixels x.N x.H x.W).map fun q =>
    g q * (x.setDist (n, h, w, k) d).pixel sigma q).sum) _ _
  refine hasDerivAt_sum_single _ (nodup_pixels _ _ _) (n, h, w) hmem
    (fun q d => g q * (x.setDist (n, h, w, k) d).pixel sigma q) _ _ ?_ ?_
  · have hup : ∀ d, (fun k' => (x.setDist (n, h, w, k) d).dist (n, h, w, k'))
        = Function.update (fun k' => x.dist (n, h, w, k')) k d := by
      intro d; funext k'
      simp only [In.setDist]
      by_cases e : k' = k
      · subst e; simp
      · rw [Function.update_of_ne (by simp [e]), Function.update_of_ne e]
    have hpx : ∀ d, (x.setDist (n, h, w, k) d).pixel sigma (n, h, w)
        = sigmoidPixel sigma x.K (fun k' => x.face (n, h, w, k'))
          (Function.update (fun k' => x.dist (n, h, w, k')) k d) := by
      intro d; rw [← hup d]; rfl
    simp only [hpx]
    rw [backwardCpu_apply]
    by_cases hf : x.face (n, h, w, k) < 0
    · rw [if_neg (by tauto)]
      have hc : ∀ d, sigmoidPixel sigma x.K (fun k' => x.face (n, h, w, k'))
          (Function.update (fun k' => x.dist (n, h, w, k')) k d)
          = sigmoidPixel sigma x.K (fun k' => x.face (n, h, w, k'))
            (fun k' => x.dist (n, h, w, k')) := by
        intro d
        rw [sigmoidPixel_eq, sigmoidPixel_eq]
        congr 1
        apply List.map_congr_left
        intro m hm
        have : m ≠ k := by
          rintro rfl
          have := (List.mem_filter.mp hm).2
          simp [hf] at this
        rw [Function.update_of_ne this]
      simp only [hc]
      exact hasDerivAt_const _ _
    · rw [if_pos ⟨⟨hn, hh, hw⟩, hk, hf⟩]
      have := hasDerivAt_sigmoidPixel sigma hs x.K (fun k' => x.face (n, h, w, k'))
        (fun k' => x.dist (n, h, w, k')) hk hf
      refine (this.const_mul (g (n, h, w))).congr_deriv ?_
      rw [In.gradEntry, forwardCpu_apply, if_pos hmem]
      simp only [In.pixel]
      ring
  · rintro ⟨n', h', w'⟩ _ hne y y'

    congr 1
    unfold In.pixel
    congr 1
    funext k'
    have : ((n', h', w', k') : Ix4) ≠ (n, h, w, k) := by
      intro e
      simp only [Prod.mk.injEq] at e
      exact hne (by simp [e.1, e.2.1, e.2.2.1])
    simp [In.setDist, Function.update_of_ne this]

/-! ### softmax_rgb_blend -/

/-- A face seen by a pixel: (signed distance, depth, colour). -/
abbrev Face := ℝ × ℝ × ℝ

/-- The faces in the slots of a pixel, padding removed. -/
def Frag.faces (f : Frag) (colors : Nat → ℝ) : List Face :=
  ((List.range f.K).filter fun k => !decide (f.face k < 0)).map
    fun k => (f.dist k, f.zbuf k, colors k)

/-- Normalised inverse depth. -/
def invDepth (P : Params) (z : ℝ) : ℝ := (P.zfar - z) / (P.zfar - P.znear)

/-- Soft blending of a list of faces: weights `prob * exp(z / gamma)`, written with the maximum
`m` of the inverse depths and `eps` factored out, plus a background weight. -/
def maxInv (P : Params) (l : List Face) : ℝ :=
  l.foldr (fun a m => max (invDepth P a.2.1) m) P.eps

def faceWeight (P : Params) (m : ℝ) (a : Face) : ℝ :=
  coverProb P.sigma a.1 * Real.exp ((invDepth P a.2.1 - m) / P.gamma)

def bgWeight (P : Params) (m : ℝ) : ℝ := max (Real.exp ((P.eps - m) / P.gamma)) P.eps

/-- Weighted average of face colours and background. -/
def softAverage (P : Params) (l : List Face) (background : ℝ) : ℝ :=
  ((l.map fun a => faceWeight P (maxInv P l) a * a.2.2).sum + bgWeight P (maxInv P l) * background)
    / ((l.map (faceWeight P (maxInv P l))).sum + bgWeight P (maxInv P l))

theorem sigmoid_neg_div (sigma d : ℝ) : sigmoid (-d / sigma) = coverProb sigma d := by
  unfold sigmoid coverProb
  rw [one_div]; congr 3; ring

theorem sum_filter_zero {α : Type*} (l : List α) (q : α → Bool) (v : α → ℝ)
    (h : ∀ a ∈ l, q a = false → v a = 0) : (l.map v).sum = ((l.filter q).map v).sum := by
  induction l with
  | nil => rfl
  | cons a l ih =>
    have ih := ih fun b hb => h b (by simp [hb])
    by_cases hq : q a
    · simp [hq, ih]
    · have := h a (by simp) (by simpa using hq)
      simp [hq, ih, this]

theorem prod_filter_one {α : Type*} (l : List α) (q : α → Bool) (v : α → ℝ)
    (h : ∀ a ∈ l, q a = false → v a = 1) : (l.map v).prod = ((l.filter q).map v).prod := by
  induction l with
  | nil => rfl
  | cons a l ih =>
    have ih := ih fun b hb => h b (by simp [hb])
    by_cases hq : q a
    · simp [hq, ih]
    · have := h a (by simp) (by simpa using hq)
      simp [hq, ih, this]

theorem foldl_max_le (l : List Nat) (v : Nat → ℝ) (a e : ℝ) :
    max (l.foldl (fun m k => max m (v k)) a) e
      = max a (l.foldr (fun k m => max (v k) m) e) := by
  induction l generalizing a with
  | nil => rfl
  | cons k l ih =>
    rw [List.foldl_cons, ih, List.foldr_cons, max_assoc]

theorem foldr_max_ge (l : List Nat) (v : Nat → ℝ) (e : ℝ) :
    e ≤ l.foldr (fun k m => max (v k) m) e := by
  induction l with
  | nil => exact le_refl _
  | cons k l ih => exact ih.trans (le_max_right _ _)

theorem zInvMax_eq (P : Params) (hP : 0 ≤ P.eps) (f : Frag) (hK : 0 < f.K) (colors : Nat → ℝ) :
    zInvMax P f = maxInv P (f.faces colors) := by
  unfold zInvMax
  rw [foldl_max_le]
  have key : ∀ l : List Nat, l.foldr (fun k m => max (zInv P f k) m) P.eps
      = maxInv P ((l.filter fun k => !decide (f.face k < 0)).map
        fun k => (f.dist k, f.zbuf k, colors k)) := by
    intro l
    induction l with
    | nil => rfl
    | cons k l ih =>
      rw [List.foldr_cons, ih]
      by_cases h : f.face k < 0
      · have hz : zInv P f k = 0 := by
          have : ¬ f.face k ≥ 0 := not_le.mpr h
          simp [zInv, mask, this]
        rw [hz, ← ih, max_eq_right (hP.trans (foldr_max_ge l (zInv P f) P.eps)), ih]
        simp [h]
      · have hz : zInv P f k = invDepth P (f.zbuf k) := by
          have : f.face k ≥ 0 := not_lt.mp h
          simp [zInv, mask, this, invDepth]
        rw [hz]
        simp [h, maxInv]
  have h0 : zInv P f 0 ≤ (List.range f.K).foldr (fun k m => max (zInv P f k) m) P.eps := by
    obtain ⟨K, hK⟩ : ∃ K, f.K = K + 1 := ⟨f.K - 1, by omega⟩
    rw [hK, List.range_succ_eq_map, List.foldr_cons]
    exact le_max_left _ _
  rw [max_eq_right h0, key]
  rfl

theorem weightsNum_valid (P : Params) (f : Frag) {k : Nat} (h : ¬ f.face k < 0) :
    weightsNum P f k = coverProb P.sigma (f.dist k)
      * Real.exp ((invDepth P (f.zbuf k) - zInvMax P f) / P.gamma) := by
  have h' : f.face k ≥ 0 := not_lt.mp h
  simp only [weightsNum, probMap, zInv, mask, h', if_true, mul_one, sigmoid_neg_div, invDepth]

theorem weightsNum_pad (P : Params) (f : Frag) {k : Nat} (h : f.face k < 0) :
    weightsNum P f k = 0 := by
  have h' : ¬ f.face k ≥ 0 := not_le.mpr h
  simp [weightsNum, probMap, mask, h']

/-- **C37 (softmax, padding).** The RGB output is the soft average of the faces actually present
(padded slots have no influence at all, wherever they are), and the alpha channel is the silhouette
probability. -/
theorem softmaxBlend_eq (P : Params) (hP : 0 ≤ P.eps) (f : Frag) (hK : 0 < f.K)
    (colors : Nat → ℝ) (background : ℝ) :
    softmaxBlend P f colors background
      = (softAverage P (f.faces colors) background,
         coverage P.sigma (validDists f.K f.face f.dist)) := by
  have hm := zInvMax_eq P hP f hK colors
  have hw : ∀ k, ¬ f.face k < 0 → weightsNum P f k
      = faceWeight P (maxInv P (f.faces colors)) (f.dist k, f.zbuf k, colors k) := by
    intro k h
    rw [weightsNum_valid P f h, hm]; rfl
  have hd : delta P f = bgWeight P (maxInv P (f.faces colors)) := by
    rw [delta, hm]; rfl
  have s1 : ((List.range f.K).map (weightsNum P f)).sum
      = ((f.faces colors).map (faceWeight P (maxInv P (f.faces colors)))).sum := by
    rw [sum_filter_zero _ (fun k => !decide (f.face k < 0))]
    · conv_rhs => rw [Frag.faces]
      rw [List.map_map]
      congr 1
      apply List.map_congr_left
      intro k hk
      have := (List.mem_filter.mp hk).2
      exact hw k (by simpa using this)
    · intro k _ h
      exact weightsNum_pad P f (by simpa using h)
  have s2 : ((List.range f.K).map fun k => weightsNum P f k * colors k).sum
      = ((f.faces colors).map fun a => faceWeight P (maxInv P (f.faces colors)) a * a.2.2).sum := by
    rw [sum_filter_zero _ (fun k => !decide (f.face k < 0))]
    · conv_rhs => rw [Frag.faces]
      rw [List.map_map]
      congr 1
      apply List.map_congr_left
      intro k hk
      have := (List.mem_filter.mp hk).2
      rw [hw k (by simpa using this)]; rfl
    · intro k _ h
      rw [weightsNum_pad P f (by simpa using h), zero_mul]
  have s3 : softAlpha P f
      = ((validDists f.K f.face f.dist).map fun d => 1 - coverProb P.sigma d).prod := by
    rw [softAlpha, prod_filter_one _ (fun k => !decide (f.face k < 0)), validDists, List.map_map]
    · congr 1
      apply List.map_congr_left
      intro k hk
      have := (List.mem_filter.mp hk).2
      have h' : f.face k ≥ 0 := by simpa using this
      simp [probMap, mask, h', sigmoid_neg_div]
    · intro k _ h
      have h' : ¬ f.face k ≥ 0 := by simpa using h
      simp [probMap, mask, h']
  rw [softmaxBlend, denom, s1, s2, s3, hd]
  rfl

theorem bgWeight_pos (P : Params) (m : ℝ) : 0 < bgWeight P m :=
  lt_max_of_lt_left (Real.exp_pos _)

theorem faceWeight_pos (P : Params) (m : ℝ) (a : Face) : 0 < faceWeight P m a :=
  mul_pos (coverProb_mem _ _).1 (Real.exp_pos _)

/-- **C37 (softmax, range).** The RGB value is a convex combination: if the background and the
colours of the faces present lie in `[lo, hi]`, so does the result. -/
theorem softAverage_mem (P : Params) (l : List Face) (background lo hi : ℝ)
    (hb : lo ≤ background ∧ background ≤ hi) (hl : ∀ a ∈ l, lo ≤ a.2.2 ∧ a.2.2 ≤ hi) :
    lo ≤ softAverage P l background ∧ softAverage P l background ≤ hi := by
  unfold softAverage
  generalize maxInv P l = m
  have hsum : 0 ≤ (l.map (faceWeight P m)).sum := by
    apply List.sum_nonneg
    intro v hv
    obtain ⟨a, _, rfl⟩ := List.mem_map.mp hv
    exact (faceWeight_pos P m a).le
  have hbg := bgWeight_pos P m
  have hd : 0 < (l.map (faceWeight P m)).sum + bgWeight P m := by linarith
  have h1 : lo * (l.map (faceWeight P m)).sum ≤ (l.map fun a => faceWeight P m a * a.2.2).sum := by
    rw [← List.sum_map_mul_left]
    apply List.sum_le_sum
    intro a ha
    rw [mul_comm]
    exact mul_le_mul_of_nonneg_left (hl a ha).1 (faceWeight_pos P m a).le
  have h2 : (l.map fun a => faceWeight P m a * a.2.2).sum ≤ hi * (l.map (faceWeight P m)).sum := by
    rw [← List.sum_map_mul_left]
    apply List.sum_le_sum
    intro a ha
    rw [mul_comm hi]
    exact mul_le_mul_of_nonneg_left (hl a ha).2 (faceWeight_pos P m a).le
  have h3 := mul_le_mul_of_nonneg_left hb.1 hbg.le
  have h4 := mul_le_mul_of_nonneg_left hb.2 hbg.le
  rw [le_div_iff₀ hd, div_le_iff₀ hd]
  constructor <;> linarith

/-- **C37 (softmax, empty pixel).** Where no face is present the result is exactly the background
with alpha 0. -/
theorem softmaxBlend_empty (P : Params) (hP : 0 ≤ P.eps) (f : Frag) (hK : 0 < f.K)
    (colors : Nat → ℝ) (background : ℝ) (h : ∀ k < f.K, f.face k < 0) :
    softmaxBlend P f colors background = (background, 0) := by
  have e : (List.range f.K).filter (fun k => !decide (f.face k < 0)) = [] := by
    rw [List.filter_eq_nil_iff]
    intro k hk
    simp [h k (List.mem_range.mp hk)]
  rw [softmaxBlend_eq P hP f hK, Frag.faces, validDists, e]
  have := (bgWeight_pos P (maxInv P [])).ne'
  simp [softAverage, coverage, this]

/-- **C37 (softmax, formula).** As long as the lower clamp of the background weight is not active,
factoring out the maximum changes nothing: the result is the softmax average with weights
`prob * exp(z/gamma)` and background weight `exp(eps/gamma)` of the paper. -/
theorem softAverage_unshifted (P : Params) (l : List Face) (background : ℝ)
    (h : P.eps ≤ Real.exp ((P.eps - maxInv P l) / P.gamma)) :
    softAverage P l background
      = ((l.map fun a => coverProb P.sigma a.1 * Real.exp (invDepth P a.2.1 / P.gamma) * a.2.2).sum
          + Real.exp (P.eps / P.gamma) * background)
        / ((l.map fun a => coverProb P.sigma a.1 * Real.exp (invDepth P a.2.1 / P.gamma)).sum
          + Real.exp (P.eps / P.gamma)) := by
  unfold softAverage
  rw [bgWeight, max_eq_left h]
  set m := maxInv P l with hm
  have hE : Real.exp (-(m / P.gamma)) ≠ 0 := (Real.exp_pos _).ne'
  have e1 : ∀ a : Face, faceWeight P m a
      = Real.exp (-(m / P.gamma)) * (coverProb P.sigma a.1 * Real.exp (invDepth P a.2.1 / P.gamma)) := by
    intro a
    rw [faceWeight, show (invDepth P a.2.1 - m) / P.gamma
      = invDepth P a.2.1 / P.gamma + -(m / P.gamma) by ring, Real.exp_add]
    ring
  have e2 : Real.exp ((P.eps - m) / P.gamma)
      = Real.exp (-(m / P.gamma)) * Real.exp (P.eps / P.gamma) := by
    rw [← Real.exp_add]; congr 1; ring
  have e3 : (l.map fun a => faceWeight P m a * a.2.2).sum = Real.exp (-(m / P.gamma)) *
      (l.map fun a => coverProb P.sigma a.1 * Real.exp (invDepth P a.2.1 / P.gamma) * a.2.2).sum := by
    rw [← List.sum_map_mul_left]
    congr 1; apply List.map_congr_left; intro a _; rw [e1]; ring
  have e4 : (l.map (faceWeight P m)).sum = Real.exp (-(m / P.gamma)) *
      (l.map fun a => coverProb P.sigma a.1 * Real.exp (invDepth P a.2.1 / P.gamma)).sum := by
    rw [← List.sum_map_mul_left]
    congr 1; apply List.map_congr_left; intro a _; rw [e1]
  rw [e2, e3, e4, mul_assoc, ← mul_add, ← mul_add, mul_div_mul_left _ _ hE]

end

/-! ### hard_rgb_blend -/

theorem maskedScatter_append {α : Type*} (a b : List (Bool × α)) (sa sb r : List α)
    (h : maskedScatter a sa = some r) (hn : sa.length = (a.map Prod.fst).count true) :
    maskedScatter (a ++ b) (sa ++ sb) = (maskedScatter b sb).map (r ++ ·) := by
  induction a generalizing sa r with
  | nil =>
    simp only [List.map_nil, List.count_nil, List.length_eq_zero_iff] at hn
    subst hn
    simp only [maskedScatter, Option.some.injEq] at h
    subst h
    simp
  | cons c a ih =>
    obtain ⟨m, v⟩ := c
    cases m with
    | false =>
      simp only [maskedScatter, Option.map_eq_some_iff] at h
      obtain ⟨r', hr', rfl⟩ := h
      have := ih sa r' hr' (by simpa using hn)
      simp only [List.cons_append, maskedScatter, this, Option.map_map]
      rfl
    | true =>
      cases sa with
      | nil => simp [maskedScatter] at h
      | cons s sa =>
        simp only [maskedScatter, Option.map_eq_some_iff] at h
        obtain ⟨r', hr', rfl⟩ := h
        have := ih sa r' hr' (by simpa using hn)
        simp only [List.cons_append, maskedScatter, this, Option.map_map]
        rfl

theorem maskedScatter_false {α : Type*} (vs : List α) :
    maskedScatter (vs.map fun c => (false, c)) [] = some vs := by
  induction vs with
  | nil => rfl
  | cons v vs ih => simp [maskedScatter, ih]

theorem maskedScatter_true {α : Type*} (vs src : List α) (h : src.length = vs.length) :
    maskedScatter (vs.map fun c => (true, c)) src = some src := by
  induction vs generalizing src with
  | nil => simp only [List.length_nil, List.length_eq_zero_iff] at h; subst h; rfl
  | cons v vs ih =>
    cases src with
    | nil => simp at h
    | cons s src => simp [maskedScatter, ih src (by simpa using h)]

/-- **C37 (hard_rgb_blend).** When background and face colours have the same number of channels,
`masked_scatter` hands every background pixel exactly the background colour and leaves all other
pixels unchanged; alpha is 0 on the background and 1 elsewhere (not "1.0" as documented). -/
theorem hardBlend_eq {α : Type*} [Zero α] [One α] (first : List (Int × List α))
    (background : List α) (h : ∀ q ∈ first, q.2.length = background.length) :
    hardBlend first background
      = some ((first.flatMap fun q => if q.1 < 0 then background else q.2),
          first.map fun q => if q.1 < 0 then 0 else 1) := by
  have key : maskedScatter (first.flatMap fun q => q.2.map fun c => (decide (q.1 < 0), c))
      (List.replicate ((first.map fun q => decide (q.1 < 0)).count true) background).flatten
      = some (first.flatMap fun q => if q.1 < 0 then background else q.2) := by
    induction first with
    | nil => simp [maskedScatter]
    | cons q first ih =>
      have ih := ih fun q' hq' => h q' (by simp [hq'])
      have hq := h q (by simp)
      by_cases hf : q.1 < 0
      · simp only [List.map_cons, hf, decide_true, List.count_cons_self, List.replicate_succ,
          List.flatten_cons, List.flatMap_cons, if_true]
        rw [maskedScatter_append _ _ background _ background
          (maskedScatter_true _ _ hq.symm) (by simp [Function.comp_def, hq]), ih]
        rfl
      · simp only [List.map_cons, hf, decide_false, List.flatMap_cons, if_false]
        have := maskedScatter_append (q.2.map fun c => (false, c)) (first.flatMap fun q =>
          q.2.map fun c => (decide (q.1 < 0), c)) [] (List.replicate
            ((first.map fun q => decide (q.1 < 0)).count true) background).flatten q.2
          (maskedScatter_false _) (by simp [Function.comp_def, List.count_replicate])
        simp only [List.nil_append] at this
        rw [show (List.count true (false :: List.map (fun q => decide (q.1 < 0)) first))
          = List.count true (List.map (fun q => decide (q.1 < 0)) first) by simp, this, ih]
        rfl
  rw [hardBlend, key]
  simp [Function.comp_def]

/-! ### Concrete cases -/

example : hardBlend [((3 : Int), [7, 8, 9]), (-1, [0, 0, 0]), (2, [4, 5, 6])] [1, 2, (3 : ℤ)]
    = some ([7, 8, 9, 1, 2, 3, 4, 5, 6], [1, 0, 1]) := by decide

example : coverage 1 [0, 0] = 3 / 4 := by
  simp only [coverage, coverProb, List.map_cons, List.map_nil, List.prod_cons, List.prod_nil,
    zero_div, Real.exp_zero]
  norm_num

/-- One face at distance 0 and inverse depth `eps`, colour 5, background 1: weights 1/2 and 1. -/
example : softAverage ⟨1, 1, 0, 1, 1/2⟩ [(0, 1/2, 5)] 1 = 7 / 3 := by
  simp only [softAverage, maxInv, faceWeight, bgWeight, coverProb, invDepth, List.map_cons,
    List.map_nil, List.sum_cons, List.sum_nil, List.foldr_cons, List.foldr_nil]
  norm_num

example : validDists 3 (fun k => if k = 1 then -1 else 4) (fun k => (k : ℝ)) = [0, 2] := by
  have : (List.range 3).filter (fun k => !decide ((if k = 1 then (-1 : Int) else 4) < 0))
    = [0, 2] := by decide
  simp [validDists, this]

end P3D.Blending
