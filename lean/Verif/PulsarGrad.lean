/-
Pulsar: the gradients of `draw` (`csrc/pulsar/include/renderer.draw.device.h:332-840`) and their normalization
(`renderer.norm_sphere_gradients.device.h`).

The gradients are compared with the derivatives of the functions of `PulsarDraw`.  `m` is the recorded maximum of the exponents, a constant of the
backward pass (the colour does not depend on it, `PulsarRender.color_softmax`).  Not modelled: camera gradients in orthogonal projections,
rounding of floats.
-/
import Mathlib.Analysis.SpecialFunctions.Sqrt
import Mathlib.Analysis.SpecialFunctions.ExpDeriv
import Mathlib.Analysis.Calculus.Deriv.Inv
import Mathlib.Analysis.Calculus.Deriv.Abs
import Mathlib.Tactic.Linarith
import Mathlib.Tactic.FieldSimp
import Mathlib.Tactic.Ring
import Mathlib.Tactic.NormNum
import Verif.PulsarDraw

set_option linter.unusedSectionVars false

namespace P3D.PulsarGrad

open V3 PulsarDraw

/-! ### The code -/

/-- The coefficient of a hit before its clamp (renderer.draw.device.h:334-339). -/
noncomputable def coeff (k : Cam) (gamma opacity m cl d : ℝ) : ℝ := cl * Real.exp (exponent k gamma opacity d - m) * opacity

/-- The clamp (lines 337-339): `coeff` in `[0, sm_d - FEPS]`. -/
noncomputable def clampCoeff (eps smd x : ℝ) : ℝ := max (min x (smd - eps)) 0

/-- `dimDdcoeff` for one channel (lines 449-468): incoming gradient, colour of the sphere, colour of the pixel. -/
noncomputable def dim (eps smd x g col res : ℝ) : ℝ :=
  let cf := clampCoeff eps smd x
  let otherw := smd - cf
  g * (col - (res * smd - col * cf) * (1 / max otherw eps)) * (otherw * (1 / max (smd * smd) eps))

/-- All channels. -/
noncomputable def dimAll (eps smd x : ℝ) (ch : List (ℝ × ℝ × ℝ)) : ℝ := (ch.map fun a => dim eps smd x a.1 a.2.1 a.2.2).sum

/-- The gradient of a colour channel (lines 431-438). -/
noncomputable def gradCol (eps smd x g : ℝ) : ℝ := g * (clampCoeff eps smd x * (1 / max smd eps))

/-- `dcoeffDdintersection_depth` (lines 493-494). -/
noncomputable def dDepth (k : Cam) (gamma opacity m cl d : ℝ) : ℝ :=
  -cl * Real.exp (exponent k gamma opacity d - m) * opacity * opacity / (gamma * (k.maxDist - k.minDist))

/-- `dcoeffDdcloseness` (line 495). -/
noncomputable def dClose (k : Cam) (gamma opacity m d : ℝ) : ℝ := Real.exp (exponent k gamma opacity d - m) * opacity

/-- `dcoeffDdopacity` (lines 476-478). -/
noncomputable def dOpacity (k : Cam) (gamma opacity m cl d : ℝ) : ℝ :=
  Real.exp (exponent k gamma opacity d - m) * cl * (1 + opacity * (1 - (d - k.minDist) * (1 / (k.maxDist - k.minDist))) * (1 / gamma))

/-- `dcoeffDdrad` (lines 739-741, the same in orthogonal projections): `cw` is `closeness_world`, `p` is `p1__p2_`. -/
noncomputable def dRad (eps dd dc cw r p : ℝ) : ℝ := dc * (cw / (r * r)) - dd * r / max p eps

/-- `dcoeffDdcenter` (lines 752-754, 773-778); a division by a vanishing `closeness_world * radius` gives NaN, `none` here. -/
noncomputable def dCenter (eps dd dc r : ℝ) (C u : V3 ℝ) : Option (V3 ℝ) :=
  let o := dot C u
  let p := halfChord r (cp1 (len C) o)
  let q := C - len C • u
  if chord C u * r = 0 then none
  else some (dd • (u + (1 / max p eps) • (C - o • u)) + (dc / (chord C u * r)) • (dot u q • ((1 / len C) • C) - q))

/-- `dcoeffDdray` (lines 755-760): `D` is the direction before normalization. -/
noncomputable def dRay (eps dd dc r : ℝ) (C D : V3 ℝ) : Option (V3 ℝ) :=
  let u := (1 / len D) • D
  let o := dot C u
  let p := halfChord r (cp1 (len C) o)
  let q := C - len C • u
  let t1 := C - o • u
  if chord C u * r = 0 then none
  else some ((dd / len D) • (t1 - o • ((1 / max p eps) • t1)) + (dc / (chord C u * r) * (len C / len D)) • (-dot u q • u + q))

/-- Orthogonal projection: `dcoeffDdcenter` in the coordinates of the camera (lines 519-526); `(x, y)` is the pixel. -/
noncomputable def dCenterO (k : Cam) (eps dd dc r : ℝ) (C : V3 ℝ) (x y : ℝ) : V3 ℝ :=
  let q : V3 ℝ := ⟨C.x - planeX k x, C.y - planeY k y, 0⟩
  let p := halfChord r (chordO k C x y)
  dd • (⟨q.x / max p eps, q.y / max p eps, signDir C.z⟩ : V3 ℝ) - (dc / max (len q * r) eps) • q

/-- Orthogonal projection: the gradient of the position (lines 546-560): the sum of the unit axes, multiplied component by component. -/
def posO (ax ay az d : V3 ℝ) : V3 ℝ := ⟨d.x * (ax.x + ay.x + az.x), d.y * (ax.y + ay.y + az.y), d.z * (ax.z + ay.z + az.z)⟩

/-- `norm_sphere_gradients` (renderer.norm_sphere_gradients.device.h:25-45): the sum over pixels times the reciprocal of their number. -/
noncomputable def normalized (l : List ℝ) : ℝ := l.sum * (if 0 < l.length then 1 / (l.length : ℝ) else 0)

/-! ### Colours and coefficients -/

/-- The colour of a pixel as a function of the coefficient of one hit: the others have weight `wo` and weighted colour `s`. -/
noncomputable def pixel (wo s col x : ℝ) : ℝ := (s + x * col) / (wo + x)

theorem clampCoeff_id (eps wo x : ℝ) (hx : 0 ≤ x) (hw : eps ≤ wo) : clampCoeff eps (wo + x) x = x := by
  rw [clampCoeff, min_eq_left (by linarith), max_eq_left hx]

/-- `dimDdcoeff` is the derivative of the pixel by the coefficient, if the other weights are at least `eps`. -/
theorem dim_deriv (eps wo s col g x : ℝ) (he : 0 < eps) (hx : 0 ≤ x) (hw : eps ≤ wo) (hs : eps ≤ (wo + x) * (wo + x)) :
    HasDerivAt (fun y => g * pixel wo s col y) (dim eps (wo + x) x g col (pixel wo s col x)) x := by
  have hpos : wo + x ≠ 0 := by linarith
  have h1 : HasDerivAt (fun y => s + y * col) col x := by
    simpa using ((hasDerivAt_id x).mul_const col).const_add s
  have h2 : HasDerivAt (fun y => wo + y) 1 x := (hasDerivAt_id x).const_add wo
  have h3 := (h1.div h2 hpos).const_mul g
  refine h3.congr_deriv ?_
  simp only [dim, clampCoeff_id eps wo x hx hw, pixel]
  rw [show wo + x - x = wo by ring, max_eq_left hw, max_eq_left hs]
  have hw0 : wo ≠ 0 := by linarith
  field_simp
  ring

/-- The gradient of a colour. -/
theorem gradCol_deriv (eps wo s col g x : ℝ) (hx : 0 ≤ x) (hw : eps ≤ wo) :
    HasDerivAt (fun c => g * pixel wo s c x) (gradCol eps (wo + x) x g) col := by
  have h1 : HasDerivAt (fun c => s + x * c) x col := by
    simpa using ((hasDerivAt_id col).const_mul x).const_add s
  have h3 := (h1.div_const (wo + x)).const_mul g
  refine h3.congr_deriv ?_
  rw [gradCol, clampCoeff_id eps wo x hx hw, max_eq_left (by linarith)]
  ring

/-- The coefficient by depth, closeness and opacity. -/
theorem coeff_deriv (k : Cam) (gamma opacity m : ℝ) (cl d : ℝ → ℝ) (cl' d' s : ℝ) (hc : HasDerivAt cl cl' s) (hd : HasDerivAt d d' s) :
    HasDerivAt (fun x => coeff k gamma opacity m (cl x) (d x))
      (dClose k gamma opacity m (d s) * cl' + dDepth k gamma opacity m (cl s) (d s) * d') s := by
  have h1 : HasDerivAt (fun x => exponent k gamma opacity (d x) - m) (-(d' * (1 / (k.maxDist - k.minDist))) / gamma * opacity) s :=
    (((((hd.sub_const k.minDist).mul_const _).const_sub 1).div_const gamma).mul_const opacity).sub_const m
  have h2 := (hc.mul h1.exp).mul_const opacity
  refine h2.congr_deriv ?_
  simp only [dClose, dDepth]
  rw [div_mul_eq_div_div]
  ring

theorem opacity_deriv (k : Cam) (gamma opacity m cl d : ℝ) :
    HasDerivAt (fun o => coeff k gamma o m cl d) (dOpacity k gamma opacity m cl d) opacity := by
  have h1 : HasDerivAt (fun o => exponent k gamma o d - m) ((1 - (d - k.minDist) * (1 / (k.maxDist - k.minDist))) / gamma) opacity := by
    have := ((hasDerivAt_id opacity).const_mul ((1 - (d - k.minDist) * (1 / (k.maxDist - k.minDist))) / gamma)).sub_const m
    simpa [exponent] using this
  have h2 := (h1.exp.const_mul cl).mul (hasDerivAt_id opacity)
  refine h2.congr_deriv ?_
  simp only [dOpacity, id]
  ring

/-! ### Geometry -/

/-- Depth as a function of `t`, `o` and `r` alone. -/
theorem depth_formula (r : ℝ) (C u : V3 ℝ) (hu : normSq u = 1) (h : cp1 (len C) (dot C u) ≤ r) :
    halfChord r (cp1 (len C) (dot C u)) = Real.sqrt (r ^ 2 - len C ^ 2 + dot C u ^ 2) ∧
    depth r C u = dot C u - Real.sqrt (r ^ 2 - len C ^ 2 + dot C u ^ 2) := by
  have h1 := dot_le_len C u hu
  have hc0 : 0 ≤ cp1 (len C) (dot C u) := Real.sqrt_nonneg _
  have hcs : cp1 (len C) (dot C u) ^ 2 = len C ^ 2 - dot C u ^ 2 := by
    rw [cp1, max_eq_left (by linarith), Real.sq_sqrt (mul_nonneg (neg_len_le C u hu) (by linarith))]
    ring
  have e : halfChord r (cp1 (len C) (dot C u)) = Real.sqrt (r ^ 2 - len C ^ 2 + dot C u ^ 2) := by
    rw [halfChord, max_eq_left (by linarith)]
    congr 1
    linear_combination -hcs
  exact ⟨e, by rw [depth, min_eq_left h1, e]⟩

theorem cp1_le_chord (C u : V3 ℝ) (hu : normSq u = 1) : cp1 (len C) (dot C u) ≤ chord C u := by
  have h1 := dot_le_len C u hu
  have hs := chord_sq C u hu
  apply Real.sqrt_le_iff.mpr
  refine ⟨chord_nonneg C u, ?_⟩
  rw [hs, max_eq_left (by linarith)]
  nlinarith

theorem len_deriv (f : ℝ → V3 ℝ) (f' : V3 ℝ) (s : ℝ) (hx : HasDerivAt (fun x => (f x).x) f'.x s) (hy : HasDerivAt (fun x => (f x).y) f'.y s)
    (hz : HasDerivAt (fun x => (f x).z) f'.z s) (h : len (f s) ≠ 0) : HasDerivAt (fun x => len (f x)) (dot (f s) f' / len (f s)) s := by
  have hn : HasDerivAt (fun x => normSq (f x)) (2 * dot (f s) f') s := by
    have := ((hx.mul hx).add (hy.mul hy)).add (hz.mul hz)
    refine this.congr_deriv ?_
    simp only [dot]
    ring
  have hne : normSq (f s) ≠ 0 := by
    intro h0
    apply h
    rw [len, h0, Real.sqrt_zero]
  refine (hn.sqrt hne).congr_deriv ?_
  show 2 * dot (f s) f' / (2 * len (f s)) = _
  rw [mul_div_mul_left _ _ two_ne_zero]

/-- Moving centre, fixed ray: length, dot product and chord. -/
theorem line_comp (C v : V3 ℝ) (s : ℝ) : HasDerivAt (fun x : ℝ => (C + x • v).x) v.x s ∧ HasDerivAt (fun x : ℝ => (C + x • v).y) v.y s ∧
    HasDerivAt (fun x : ℝ => (C + x • v).z) v.z s := by
  refine ⟨?_, ?_, ?_⟩
  · simpa using ((hasDerivAt_id s).mul_const v.x).const_add C.x
  · simpa using ((hasDerivAt_id s).mul_const v.y).const_add C.y
  · simpa using ((hasDerivAt_id s).mul_const v.z).const_add C.z

theorem line_zero (C v : V3 ℝ) : C + (0 : ℝ) • v = C := by ext <;> simp

/-- The derivatives of closeness and depth, for general movement of centre and ray: `t`, `o` and the chord. -/
theorem sqrt_o_deriv (t o : ℝ → ℝ) (t' o' r s : ℝ) (ht : HasDerivAt t t' s) (ho : HasDerivAt o o' s) (hp : 0 < r ^ 2 - t s ^ 2 + o s ^ 2) :
    HasDerivAt (fun x => o x - Real.sqrt (r ^ 2 - t x ^ 2 + o x ^ 2)) (o' + (t s * t' - o s * o') / Real.sqrt (r ^ 2 - t s ^ 2 + o s ^ 2)) s := by
  have h1 : HasDerivAt (fun x => r ^ 2 - t x ^ 2 + o x ^ 2) (-(2 * t s * t') + 2 * o s * o') s := by
    have := ((ht.pow 2).const_sub (r ^ 2)).add (ho.pow 2)
    refine this.congr_deriv ?_
    simp
  have h2 := ho.sub (h1.sqrt hp.ne')
  refine h2.congr_deriv ?_
  have := Real.sqrt_pos.mpr hp
  field_simp
  ring

theorem chord_eq_sqrt (C u : V3 ℝ) (hu : normSq u = 1) : chord C u = Real.sqrt (2 * len C * (len C - dot C u)) := by
  rw [← chord_sq C u hu, Real.sqrt_sq (chord_nonneg C u)]

theorem chord_deriv (C u : ℝ → V3 ℝ) (hu : ∀ x, normSq (u x) = 1) (t' o' s : ℝ) (ht : HasDerivAt (fun x => len (C x)) t' s)
    (ho : HasDerivAt (fun x => dot (C x) (u x)) o' s) (h : 0 < chord (C s) (u s)) :
    HasDerivAt (fun x => chord (C x) (u x)) ((t' * (len (C s) - dot (C s) (u s)) + len (C s) * (t' - o')) / chord (C s) (u s)) s := by
  have e : (fun x => chord (C x) (u x)) = fun x => Real.sqrt (2 * len (C x) * (len (C x) - dot (C x) (u x))) := by
    funext x
    exact chord_eq_sqrt _ _ (hu x)
  rw [e]
  have h1 := (ht.const_mul 2).mul (ht.sub ho)
  have hne : 2 * len (C s) * (len (C s) - dot (C s) (u s)) ≠ 0 := by
    rw [← chord_sq _ _ (hu s)]
    positivity
  refine (h1.sqrt hne).congr_deriv ?_
  show (2 * t' * (len (C s) - dot (C s) (u s)) + 2 * len (C s) * (t' - o')) / (2 * Real.sqrt (2 * len (C s) * (len (C s) - dot (C s) (u s)))) = _
  rw [← chord_eq_sqrt _ _ (hu s), mul_assoc 2 t', mul_assoc 2 (len (C s)), ← mul_add, mul_div_mul_left _ _ two_ne_zero]

/-- The common part: the coefficient as centre and unit ray move with derivatives `t'` of the distance and `o'` of the dot product. -/
theorem coeff_move (k : Cam) (gamma opacity m r : ℝ) (C u : ℝ → V3 ℝ) (hu : ∀ x, normSq (u x) = 1) (t' o' s : ℝ) (ht : HasDerivAt (fun x => len (C x)) t' s)
    (ho : HasDerivAt (fun x => dot (C x) (u x)) o' s) (h0 : 0 < chord (C s) (u s)) (hr : chord (C s) (u s) < r) (hbig : 1 < projRadius k (len (C s)) r)
    (ht0 : len (C s) ≠ 0) :
    HasDerivAt (fun x => coeff k gamma opacity m (closeness k r (C x) (u x)) (depth r (C x) (u x)))
      (dClose k gamma opacity m (depth r (C s) (u s)) * (-((t' * (len (C s) - dot (C s) (u s)) + len (C s) * (t' - o')) / chord (C s) (u s)) / r) +
        dDepth k gamma opacity m (closeness k r (C s) (u s)) (depth r (C s) (u s)) *
          (o' + (len (C s) * t' - dot (C s) (u s) * o') / halfChord r (cp1 (len (C s)) (dot (C s) (u s))))) s := by
  have hr0 : 0 < r := by linarith
  have hcd := chord_deriv C u hu t' o' s ht ho h0
  have ev1 : ∀ᶠ x in nhds s, chord (C x) (u x) < r := hcd.continuousAt.eventually_lt continuousAt_const hr
  have hpc : ContinuousAt (fun x => projRadius k (len (C x)) r) s :=
    (ContinuousAt.div continuousAt_const ht.continuousAt ht0).div_const _
  have ev2 : ∀ᶠ x in nhds s, 1 < projRadius k (len (C x)) r := continuousAt_const.eventually_lt hpc hbig
  have hcl : HasDerivAt (fun x => closeness k r (C x) (u x)) (-((t' * (len (C s) - dot (C s) (u s)) + len (C s) * (t' - o')) / chord (C s) (u s)) / r) s := by
    have h1 : HasDerivAt (fun x => 1 - chord (C x) (u x) / r) (-((t' * (len (C s) - dot (C s) (u s)) + len (C s) * (t' - o')) / chord (C s) (u s)) / r) s := by
      refine ((hcd.div_const r).const_sub 1).congr_deriv ?_
      ring
    refine h1.congr_of_eventuallyEq ?_
    filter_upwards [ev1, ev2] with x hx1 hx2
    exact closeness_large k r (C x) (u x) hr0 hx2.le hx1.le
  have hp : 0 < r ^ 2 - len (C s) ^ 2 + dot (C s) (u s) ^ 2 := by
    have h1 := chord_sq (C s) (u s) (hu s)
    have h2 := dot_le_len (C s) (u s) (hu s)
    have h3 := pow_lt_pow_left₀ hr h0.le two_ne_zero
    nlinarith
  have hdd : HasDerivAt (fun x => depth r (C x) (u x)) (o' + (len (C s) * t' - dot (C s) (u s) * o') / halfChord r (cp1 (len (C s)) (dot (C s) (u s)))) s := by
    have h1 := sqrt_o_deriv (fun x => len (C x)) (fun x => dot (C x) (u x)) t' o' r s ht ho hp
    rw [(depth_formula r (C s) (u s) (hu s) (le_trans (cp1_le_chord _ _ (hu s)) hr.le)).1]
    refine h1.congr_of_eventuallyEq ?_
    filter_upwards [ev1] with x hx
    exact (depth_formula r (C x) (u x) (hu x) (le_trans (cp1_le_chord _ _ (hu x)) hx.le)).2
  exact coeff_deriv k gamma opacity m _ _ _ _ s hcl hdd

/-- The gradient of the centre is the derivative of the coefficient in every direction. -/
theorem center_deriv (k : Cam) (gamma opacity m eps r : ℝ) (C u v : V3 ℝ) (hu : normSq u = 1) (h0 : 0 < chord C u) (hr : chord C u < r)
    (hbig : 1 < projRadius k (len C) r) (ht0 : len C ≠ 0) (heps : eps ≤ halfChord r (cp1 (len C) (dot C u))) :
    ∃ g, dCenter eps (dDepth k gamma opacity m (closeness k r C u) (depth r C u)) (dClose k gamma opacity m (depth r C u)) r C u = some g ∧
      HasDerivAt (fun s : ℝ => coeff k gamma opacity m (closeness k r (C + s • v) u) (depth r (C + s • v) u)) (dot g v) 0 := by
  have hne : chord C u * r ≠ 0 := (mul_pos h0 (by linarith)).ne'
  refine ⟨_, by rw [dCenter]; exact if_neg hne, ?_⟩
  obtain ⟨lx, ly, lz⟩ := line_comp C v 0
  have ht : HasDerivAt (fun s : ℝ => len (C + s • v)) (dot C v / len C) 0 := by
    have := len_deriv (fun s : ℝ => C + s • v) v 0 lx ly lz (by simpa only [line_zero] using ht0)
    simpa only [line_zero] using this
  have ho : HasDerivAt (fun s : ℝ => dot (C + s • v) u) (dot v u) 0 := by
    have := ((lx.mul_const u.x).add (ly.mul_const u.y)).add (lz.mul_const u.z)
    exact this
  have key := coeff_move k gamma opacity m r (fun s : ℝ => C + s • v) (fun _ => u) (fun _ => hu) _ _ 0 ht ho
    (by simpa only [line_zero] using h0) (by simpa only [line_zero] using hr) (by simpa only [line_zero] using hbig) (by simpa only [line_zero] using ht0)
  simp only [line_zero] at key
  refine key.congr_deriv ?_
  rw [max_eq_left heps]
  have hls := len_sq C
  have hc0 := h0.ne'
  have hr0 : r ≠ 0 := by linarith
  have hp0 : halfChord r (cp1 (len C) (dot C u)) ≠ 0 := by
    rw [(depth_formula r C u hu (le_trans (cp1_le_chord _ _ hu) hr.le)).1]
    have h1 := chord_sq C u hu
    have h2 := dot_le_len C u hu
    have h3 := pow_lt_pow_left₀ hr h0.le two_ne_zero
    exact (Real.sqrt_pos.mpr (by nlinarith)).ne'
  generalize halfChord r (cp1 (len C) (dot C u)) = p at *
  generalize chord C u = c at *
  generalize dDepth k gamma opacity m (closeness k r C u) (depth r C u) = dd
  generalize dClose k gamma opacity m (depth r C u) = dc
  have e1 : dot (dd • (u + (1 / p) • (C - dot C u • u)) + (dc / (c * r)) • (dot u (C - len C • u) • ((1 / len C) • C) - (C - len C • u))) v =
      dd * (dot v u + (dot C v - dot C u * dot v u) / p) + dc / (c * r) * ((dot C u - len C * normSq u) * (dot C v / len C) - (dot C v - len C * dot v u)) := by
    simp [dot, normSq]
    ring
  rw [e1, hu]
  field_simp
  ring

/-- The gradient of the ray, before normalization, is the derivative of the coefficient in every direction. -/
theorem ray_deriv (k : Cam) (gamma opacity m eps r : ℝ) (C D v : V3 ℝ) (hD : ∀ s : ℝ, len (D + s • v) ≠ 0) (h0 : 0 < chord C ((1 / len D) • D))
    (hr : chord C ((1 / len D) • D) < r) (hbig : 1 < projRadius k (len C) r) (ht0 : len C ≠ 0)
    (heps : eps ≤ halfChord r (cp1 (len C) (dot C ((1 / len D) • D)))) :
    ∃ g, dRay eps (dDepth k gamma opacity m (closeness k r C ((1 / len D) • D)) (depth r C ((1 / len D) • D)))
        (dClose k gamma opacity m (depth r C ((1 / len D) • D))) r C D = some g ∧
      HasDerivAt (fun s : ℝ => coeff k gamma opacity m (closeness k r C ((1 / len (D + s • v)) • (D + s • v))) (depth r C ((1 / len (D + s • v)) • (D + s • v))))
        (dot g v) 0 := by
  have hne : chord C ((1 / len D) • D) * r ≠ 0 := (mul_pos h0 (by linarith)).ne'
  refine ⟨_, by rw [dRay]; exact if_neg hne, ?_⟩
  have hD0 : len D ≠ 0 := by simpa only [line_zero] using hD 0
  have hunit : ∀ s : ℝ, normSq ((1 / len (D + s • v)) • (D + s • v)) = 1 := by
    intro s
    rw [normSq_smul, ← len_sq]
    have := hD s
    field_simp
  obtain ⟨lx, ly, lz⟩ := line_comp D v 0
  have hN : HasDerivAt (fun s : ℝ => len (D + s • v)) (dot D v / len D) 0 := by
    have := len_deriv (fun s : ℝ => D + s • v) v 0 lx ly lz (by simpa only [line_zero] using hD0)
    simpa only [line_zero] using this
  have ht : HasDerivAt (fun _ : ℝ => len C) 0 0 := hasDerivAt_const _ _
  have ho : HasDerivAt (fun s : ℝ => dot C ((1 / len (D + s • v)) • (D + s • v))) ((dot C v - dot C D * dot D v / len D ^ 2) / len D) 0 := by
    have h1 : HasDerivAt (fun s : ℝ => dot C (D + s • v)) (dot C v) 0 := by
      have := ((lx.const_mul C.x).add (ly.const_mul C.y)).add (lz.const_mul C.z)
      exact this
    have h2 := h1.div hN (by simpa only [line_zero] using hD0)
    have e : (fun s : ℝ => dot C ((1 / len (D + s • v)) • (D + s • v))) = (fun s : ℝ => dot C (D + s • v)) / fun s : ℝ => len (D + s • v) := by
      funext s
      rw [dot_smul, Pi.div_apply]
      ring
    rw [e]
    refine h2.congr_deriv ?_
    simp only [line_zero]
    field_simp
  have key := coeff_move k gamma opacity m r (fun _ => C) (fun s : ℝ => (1 / len (D + s • v)) • (D + s • v)) hunit _ _ 0 ht ho
    (by simpa only [line_zero] using h0) (by simpa only [line_zero] using hr) hbig ht0
  simp only [line_zero] at key
  refine key.congr_deriv ?_
  rw [max_eq_left heps]
  have hu : normSq ((1 / len D) • D) = 1 := by simpa only [line_zero] using hunit 0
  have hc0 := h0.ne'
  have hr0 : r ≠ 0 := by linarith
  have hp0 : halfChord r (cp1 (len C) (dot C ((1 / len D) • D))) ≠ 0 := by
    rw [(depth_formula r C _ hu (le_trans (cp1_le_chord _ _ hu) hr.le)).1]
    have h1 := chord_sq C _ hu
    have h2 := dot_le_len C _ hu
    have h3 := pow_lt_pow_left₀ hr h0.le two_ne_zero
    exact (Real.sqrt_pos.mpr (by nlinarith)).ne'
  have eC : dot C D = len D * dot C ((1 / len D) • D) := by
    rw [dot_smul]
    field_simp
  have eD : dot D v = len D * dot ((1 / len D) • D) v := by
    rw [smul_dot]
    field_simp
  rw [eC, eD]
  generalize (1 / len D) • D = u at *
  generalize halfChord r (cp1 (len C) (dot C u)) = p at *
  generalize chord C u = c at *
  generalize dDepth k gamma opacity m (closeness k r C u) (depth r C u) = dd
  generalize dClose k gamma opacity m (depth r C u) = dc
  have e1 : dot ((dd / len D) • (C - dot C u • u - dot C u • ((1 / p) • (C - dot C u • u))) + (dc / (c * r) * (len C / len D)) •
      (-dot u (C - len C • u) • u + (C - len C • u))) v =
      dd / len D * ((dot C v - dot C u * dot u v) * (1 - dot C u / p)) +
        dc / (c * r) * (len C / len D) * (-(dot C u - len C * normSq u) * dot u v + (dot C v - len C * dot u v)) := by
    simp [dot, normSq]
    ring
  rw [e1, hu]
  field_simp
  ring

/-- The gradient of the radius. -/
theorem radius_deriv (k : Cam) (gamma opacity m eps r : ℝ) (C u : V3 ℝ) (hu : normSq u = 1) (h0 : 0 ≤ chord C u) (hr : chord C u < r)
    (hbig : 1 < projRadius k (len C) r) (heps : eps ≤ halfChord r (cp1 (len C) (dot C u))) :
    HasDerivAt (fun x => coeff k gamma opacity m (closeness k x C u) (depth x C u))
      (dRad eps (dDepth k gamma opacity m (closeness k r C u) (depth r C u)) (dClose k gamma opacity m (depth r C u)) (chord C u) r
        (halfChord r (cp1 (len C) (dot C u)))) r := by
  have hr0 : 0 < r := by linarith
  have ev1 : ∀ᶠ x in nhds r, chord C u < x := continuousAt_const.eventually_lt continuousAt_id hr
  have ev2 : ∀ᶠ x in nhds r, 1 < projRadius k (len C) x :=
    continuousAt_const.eventually_lt (((continuousAt_id.mul_const _).div_const _).div_const _) hbig
  have hcl : HasDerivAt (fun x => closeness k x C u) (chord C u / (r * r)) r := by
    have h1 : HasDerivAt (fun x => 1 - chord C u / x) (chord C u / (r * r)) r := by
      have := (((hasDerivAt_inv hr0.ne').const_mul (chord C u)).const_sub 1)
      refine (this.congr_deriv ?_).congr_of_eventuallyEq ?_
      · field_simp
      · filter_upwards with x
        simp [div_eq_mul_inv]
    refine h1.congr_of_eventuallyEq ?_
    filter_upwards [ev1, ev2] with x hx1 hx2
    exact closeness_large k x C u (by linarith) hx2.le hx1.le
  have hp : 0 < r ^ 2 - len C ^ 2 + dot C u ^ 2 := by
    have h1 := chord_sq C u hu
    have h2 := dot_le_len C u hu
    have h3 := pow_lt_pow_left₀ hr h0 two_ne_zero
    nlinarith
  have hpe := (depth_formula r C u hu (le_trans (cp1_le_chord _ _ hu) hr.le)).1
  have hdd : HasDerivAt (fun x => depth x C u) (-(r / halfChord r (cp1 (len C) (dot C u)))) r := by
    have h1 : HasDerivAt (fun x : ℝ => x ^ 2 - len C ^ 2 + dot C u ^ 2) (2 * r) r := by
      have := ((hasDerivAt_pow 2 r).sub_const (len C ^ 2)).add_const (dot C u ^ 2)
      simpa using this
    have h2 := (h1.sqrt hp.ne').const_sub (dot C u)
    rw [hpe]
    refine (h2.congr_deriv ?_).congr_of_eventuallyEq ?_
    · rw [mul_div_mul_left _ _ two_ne_zero]
    · filter_upwards [ev1] with x hx
      exact (depth_formula x C u hu (le_trans (cp1_le_chord _ _ hu) hx.le)).2
  refine (coeff_deriv k gamma opacity m _ _ _ _ r hcl hdd).congr_deriv ?_
  rw [dRad, max_eq_left heps]
  ring

/-- Put together: the gradient of the position of a sphere is the derivative of the weighted sum of the channels of the pixel. -/
theorem position_gradient (k : Cam) (gamma opacity m eps r : ℝ) (C u v : V3 ℝ) (hu : normSq u = 1) (h0 : 0 < chord C u) (hr : chord C u < r)
    (hbig : 1 < projRadius k (len C) r) (ht0 : len C ≠ 0) (heps : eps ≤ halfChord r (cp1 (len C) (dot C u))) (he : 0 < eps) (wo : ℝ) (hw : eps ≤ wo)
    (ho : 0 ≤ opacity) (ch : List (ℝ × ℝ × ℝ)) (x : ℝ) (hx : x = coeff k gamma opacity m (closeness k r C u) (depth r C u)) (hs : eps ≤ (wo + x) * (wo + x)) :
    ∃ g, dCenter eps (dDepth k gamma opacity m (closeness k r C u) (depth r C u)) (dClose k gamma opacity m (depth r C u)) r C u = some g ∧
      HasDerivAt (fun s : ℝ => (ch.map fun a => a.1 * pixel wo a.2.2 a.2.1 (coeff k gamma opacity m (closeness k r (C + s • v) u) (depth r (C + s • v) u))).sum)
        (dot (dimAll eps (wo + x) x (ch.map fun a => (a.1, a.2.1, pixel wo a.2.2 a.2.1 x)) • g) v) 0 := by
  obtain ⟨g, hg, hd⟩ := center_deriv k gamma opacity m eps r C u v hu h0 hr hbig ht0 heps
  refine ⟨g, hg, ?_⟩
  have hx0 : 0 ≤ x := by
    rw [hx, coeff]
    refine mul_nonneg (mul_nonneg ?_ (Real.exp_pos _).le) ho
    unfold closeness
    split
    · exact zero_le_one
    · exact (saturate_range _).1
  rw [smul_dot]
  induction ch with
  | nil => simpa [dimAll] using hasDerivAt_const (0 : ℝ) (0 : ℝ)
  | cons a ch ih =>
    have h1 := dim_deriv eps wo a.2.2 a.2.1 a.1 x he hx0 hw hs
    have hx' : x = coeff k gamma opacity m (closeness k r (C + (0 : ℝ) • v) u) (depth r (C + (0 : ℝ) • v) u) := by rw [line_zero, hx]
    have h1' := h1
    rw [hx'] at h1'
    have h2 := HasDerivAt.comp (0 : ℝ) h1' hd
    rw [← hx'] at h2
    have h3 := h2.add ih
    simp only [List.map_cons, List.sum_cons, dimAll] at h3 ⊢
    refine h3.congr_deriv ?_
    ring

/-- A sphere whose centre is exactly on the ray of a pixel has no position gradient there (0 / 0, NaN in the code). -/
theorem center_nan (eps dd dc r : ℝ) (u : V3 ℝ) (t : ℝ) (ht : 0 ≤ t) (hu : normSq u = 1) : dCenter eps dd dc r (t • u) u = none := by
  have hl : len (t • u) = t := by
    rw [len, normSq_smul, hu, mul_one, Real.sqrt_sq ht]
  have hc : chord (t • u) u = 0 := by
    rw [chord, hl, sub_self, len]
    simp [normSq, dot]
  rw [dCenter]
  exact if_pos (by rw [hc, zero_mul])

/-! ### Orthogonal projection -/

theorem chordO_sq (k : Cam) (C : V3 ℝ) (x y : ℝ) : chordO k C x y ^ 2 = (C.x - planeX k x) ^ 2 + (C.y - planeY k y) ^ 2 := by
  rw [chordO, len_sq]
  simp [normSq, dot]
  ring

/-- In the coordinates of the camera the gradient of the centre is right in orthogonal projections, too. -/
theorem center_deriv_ortho (k : Cam) (gamma opacity m eps r : ℝ) (C v : V3 ℝ) (x y : ℝ) (h0 : 0 < chordO k C x y) (hr : chordO k C x y < r) (hz : C.z ≠ 0)
    (heps : eps ≤ halfChord r (chordO k C x y)) (heps2 : eps ≤ chordO k C x y * r) :
    HasDerivAt (fun s : ℝ => coeff k gamma opacity m (saturate (1 - chordO k (C + s • v) x y / r)) (depthO k r (C + s • v) x y))
      (dot (dCenterO k eps (dDepth k gamma opacity m (saturate (1 - chordO k C x y / r)) (depthO k r C x y)) (dClose k gamma opacity m (depthO k r C x y)) r C x y) v) 0 := by
  have hr0 : 0 < r := by linarith
  obtain ⟨lx, ly, lz⟩ := line_comp C v 0
  have hch : HasDerivAt (fun s : ℝ => chordO k (C + s • v) x y) (((C.x - planeX k x) * v.x + (C.y - planeY k y) * v.y) / chordO k C x y) 0 := by
    have := len_deriv (fun s : ℝ => (⟨(C + s • v).x - planeX k x, (C + s • v).y - planeY k y, 0⟩ : V3 ℝ)) ⟨v.x, v.y, 0⟩ 0 (lx.sub_const _) (ly.sub_const _) (hasDerivAt_const _ _)
      (by rw [line_zero]; exact h0.ne')
    rw [line_zero] at this
    refine this.congr_deriv ?_
    simp [dot, chordO]
  have ev1 : ∀ᶠ s in nhds (0 : ℝ), chordO k (C + s • v) x y < r :=
    hch.continuousAt.eventually_lt continuousAt_const (by rw [line_zero]; exact hr)
  have hcl : HasDerivAt (fun s : ℝ => saturate (1 - chordO k (C + s • v) x y / r)) (-(((C.x - planeX k x) * v.x + (C.y - planeY k y) * v.y) / chordO k C x y) / r) 0 := by
    have h1 := (hch.div_const r).const_sub 1
    refine (h1.congr_deriv (by ring)).congr_of_eventuallyEq ?_
    filter_upwards [ev1] with s hs
    have hn : 0 ≤ chordO k (C + s • v) x y := len_nonneg _
    rw [saturate, min_eq_right, max_eq_right]
    · rw [sub_nonneg, div_le_one hr0]
      exact hs.le
    · have := div_nonneg hn hr0.le
      linarith
  have hp : 0 < r ^ 2 - chordO k C x y ^ 2 := by nlinarith
  have hpe : ∀ c, 0 ≤ c → c ≤ r → halfChord r c = Real.sqrt (r ^ 2 - c ^ 2) := by
    intro c _ hcr
    rw [halfChord, max_eq_left (by linarith)]
    congr 1
    ring
  have habs : HasDerivAt (fun s : ℝ => |(C + s • v).z|) (signDir C.z * v.z) 0 := by
    rcases lt_or_gt_of_ne hz with h | h
    · have ev : ∀ᶠ s in nhds (0 : ℝ), (C + s • v).z < 0 := lz.continuousAt.eventually_lt continuousAt_const (by rw [line_zero]; exact h)
      refine (lz.neg.congr_deriv ?_).congr_of_eventuallyEq ?_
      · rw [signDir, if_pos h.le]
        ring
      · filter_upwards [ev] with s hs
        exact abs_of_neg hs
    · have ev : ∀ᶠ s in nhds (0 : ℝ), 0 < (C + s • v).z := continuousAt_const.eventually_lt lz.continuousAt (by rw [line_zero]; exact h)
      refine (lz.congr_deriv ?_).congr_of_eventuallyEq ?_
      · rw [signDir, if_neg (not_le.mpr h), one_mul]
      · filter_upwards [ev] with s hs
        exact abs_of_pos hs
  have hdd : HasDerivAt (fun s : ℝ => depthO k r (C + s • v) x y)
      (signDir C.z * v.z + ((C.x - planeX k x) * v.x + (C.y - planeY k y) * v.y) / halfChord r (chordO k C x y)) 0 := by
    have h1 : HasDerivAt (fun s : ℝ => r ^ 2 - chordO k (C + s • v) x y ^ 2) (-(2 * ((C.x - planeX k x) * v.x + (C.y - planeY k y) * v.y))) 0 := by
      refine ((hch.pow 2).const_sub (r ^ 2)).congr_deriv ?_
      simp only [line_zero]
      have := h0.ne'
      field_simp
      simp
      ring
    have h2 := habs.sub (h1.sqrt (by rw [line_zero]; exact hp.ne'))
    rw [hpe _ h0.le hr.le]
    refine (h2.congr_deriv ?_).congr_of_eventuallyEq ?_
    · simp only [line_zero]
      rw [neg_div, mul_div_mul_left _ _ two_ne_zero]
      ring
    · filter_upwards [ev1] with s hs
      show _ = |(C + s • v).z| - Real.sqrt (r ^ 2 - chordO k (C + s • v) x y ^ 2)
      rw [depthO, hpe (chordO k (C + s • v) x y) (len_nonneg _) hs.le]
  have key := coeff_deriv k gamma opacity m _ _ _ _ 0 hcl hdd
  simp only [line_zero] at key
  refine key.congr_deriv ?_
  have hlq : len ⟨C.x - planeX k x, C.y - planeY k y, 0⟩ = chordO k C x y := rfl
  simp only [dCenterO]
  rw [hlq, max_eq_left heps, max_eq_left heps2]
  have hc0 := h0.ne'
  have hp0 : halfChord r (chordO k C x y) ≠ 0 := by
    rw [hpe _ h0.le hr.le]
    exact (Real.sqrt_pos.mpr hp).ne'
  generalize halfChord r (chordO k C x y) = p at *
  generalize dDepth k gamma opacity m (saturate (1 - chordO k C x y / r)) (depthO k r C x y) = dd
  generalize dClose k gamma opacity m (depthO k r C x y) = dc
  generalize chordO k C x y = c at *
  simp [dot]
  field_simp
  ring

/-- From the coordinates of the camera to the world the gradient has to be multiplied with the transposed rotation. -/
def posTrue (ax ay az d : V3 ℝ) : V3 ℝ := d.x • ax + d.y • ay + d.z • az

/-- The centre in the coordinates of the camera (math.h:108-117). -/
def rotate (ax ay az p : V3 ℝ) : V3 ℝ := ⟨dot ax p, dot ay p, dot az p⟩

theorem posTrue_spec (ax ay az d v : V3 ℝ) : dot d (rotate ax ay az v) = dot (posTrue ax ay az d) v := by
  simp [dot, rotate, posTrue]
  ring

/-- The position gradient of the code is right exactly if the axes of the camera are multiples of the axes of the world, in the same order. -/
theorem posO_iff (ax ay az : V3 ℝ) : (∀ d, posO ax ay az d = posTrue ax ay az d) ↔
    ax.y = 0 ∧ ax.z = 0 ∧ ay.x = 0 ∧ ay.z = 0 ∧ az.x = 0 ∧ az.y = 0 := by
  constructor
  · intro h
    have h1 := h ⟨1, 0, 0⟩
    have h2 := h ⟨0, 1, 0⟩
    have h3 := h ⟨0, 0, 1⟩
    simp only [posO, posTrue, V3.ext_iff, add_x, add_y, add_z, smul_x, smul_y, smul_z] at h1 h2 h3
    obtain ⟨a1, a2, a3⟩ := h1
    obtain ⟨b1, b2, b3⟩ := h2
    obtain ⟨c1, c2, c3⟩ := h3
    refine ⟨by linarith, by linarith, by linarith, by linarith, by linarith, by linarith⟩
  · rintro ⟨h1, h2, h3, h4, h5, h6⟩ d
    ext <;> simp [posO, posTrue, h1, h2, h3, h4, h5, h6]

/-! ### Normalization -/

/-- The gradients of a sphere are averages over the pixels that track it, not sums: equal contributions give the same gradient whatever their number. -/
theorem normalized_average (l : List ℝ) (h : l ≠ []) : normalized l * l.length = l.sum := by
  have hl : 0 < l.length := List.length_pos_iff.mpr h
  have : (l.length : ℝ) ≠ 0 := by exact_mod_cast hl.ne'
  rw [normalized, if_pos hl]
  field_simp

theorem normalized_same (n : Nat) (g : ℝ) : normalized (List.replicate (n + 1) g) = g := by
  have : ((n : ℝ) + 1) ≠ 0 := by positivity
  rw [normalized, List.length_replicate, if_pos (by omega), List.sum_replicate]
  push_cast
  simp
  field_simp

theorem normalized_nil : normalized [] = 0 := by simp [normalized]

/-! ### Examples -/

/-- Two equal weights: the derivative of the pixel by the coefficient is a quarter of the difference of the colours. -/
example : dim (1 / 1000000) 2 1 1 1 (1 / 2) = 1 / 4 := by
  norm_num [dim, clampCoeff, max_def, min_def]

/-- A camera turned by 90 degrees about its axis: a gradient along x of the camera belongs to y of the world, the code leaves it at x. -/
example : posO ⟨0, 1, 0⟩ ⟨-1, 0, 0⟩ ⟨0, 0, 1⟩ ⟨1, 0, 0⟩ = ⟨-1, 0, 0⟩ ∧ posTrue ⟨0, 1, 0⟩ ⟨-1, 0, 0⟩ ⟨0, 0, 1⟩ ⟨1, 0, 0⟩ = ⟨0, 1, 0⟩ := by
  constructor <;> ext <;> norm_num [posO, posTrue]

/-- The identity is right. -/
example (d : V3 ℝ) : posO ⟨1, 0, 0⟩ ⟨0, 1, 0⟩ ⟨0, 0, 1⟩ d = posTrue ⟨1, 0, 0⟩ ⟨0, 1, 0⟩ ⟨0, 0, 1⟩ d :=
  (posO_iff _ _ _).mpr ⟨rfl, rfl, rfl, rfl, rfl, rfl⟩ d

/-- A centre on the optical axis and the ray of the middle pixel. -/
example : dCenter (1 / 1000000) (-1) 1 1 ⟨0, 0, 5⟩ ⟨0, 0, 1⟩ = none := by
  have h := center_nan (1 / 1000000) (-1) 1 1 ⟨0, 0, 1⟩ 5 (by norm_num) (by norm_num [normSq, dot])
  have e : (5 : ℝ) • (⟨0, 0, 1⟩ : V3 ℝ) = ⟨0, 0, 5⟩ := by ext <;> simp
  rwa [e] at h

example : normalized [1, 2, 6] = 3 := by norm_num [normalized]

end P3D.PulsarGrad
