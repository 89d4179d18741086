/-
Pulsar: which pixels a sphere covers.  `draw` up to the blending (`csrc/pulsar/include/renderer.draw.device.h:73-283`), `get_screen_area`
(`renderer.get_screen_area.device.h:30-132`), the bounds written by `calc_signature` (`renderer.calc_signature.device.h:86-163`) and the test of a
block of pixels (`renderer.render.device.h:188-190`).

Numbers are real.  Vectors are given in the coordinates of the camera after `rotate`: x along `pixel_dir_x`, y along `pixel_dir_y`, z along
`sensor_dir_z`; the perspective part of `draw` only uses lengths and dot products, which a rotation does not change.  Not modelled: rounding of
floats, the range of `ushort` (images are at most 65534 pixels wide), the early return for `cos_alpha < EPS` (centre behind the camera plane).
-/
import Mathlib.Analysis.SpecialFunctions.Trigonometric.Inverse
import Mathlib.Analysis.SpecialFunctions.Sqrt
import Mathlib.Algebra.Order.Floor.Ring
import Mathlib.Tactic.Linarith
import Mathlib.Tactic.FieldSimp
import Mathlib.Tactic.Ring
import Mathlib.Tactic.NormNum
import Verif.Vec3
import Verif.PulsarRender

set_option linter.unusedSectionVars false

namespace P3D.PulsarDraw

open V3

/-- Length of a vector (`length`). -/
noncomputable def len (v : V3 ℝ) : ℝ := Real.sqrt (normSq v)

/-- The camera: half of a pixel, focal length, depth range. -/
structure Cam where
  hps : ℝ
  f : ℝ
  minDist : ℝ
  maxDist : ℝ
  W : ℝ
  H : ℝ

/-- `FSATURATE(1 - closeness_world / radius)` (line 131). -/
noncomputable def saturate (x : ℝ) : ℝ := max 0 (min 1 x)

/-- `closeness_world`, perspective (lines 114-120): the distance of the centre to the point of the ray that is as far from the camera. -/
noncomputable def chord (C u : V3 ℝ) : ℝ := len (C - len C • u)

/-- `ray_through_center_pixel`, perspective (lines 178-183). -/
def centerPixel (k : Cam) (t cw : ℝ) : Prop := cw < k.hps * (3 / 2) * t / k.f

/-- `projected_radius`, perspective (lines 180-181). -/
noncomputable def projRadius (k : Cam) (t r : ℝ) : ℝ := r * k.f / t / (2 * k.hps)

/-- The distance of `p1` and `p2` (lines 256-257). -/
noncomputable def halfChord (r c : ℝ) : ℝ := Real.sqrt ((r + c) * max (r - c) 0)

/-- `c__p1_`, perspective (lines 243-244). -/
noncomputable def cp1 (t o : ℝ) : ℝ := Real.sqrt ((t + o) * max (t - o) 0)

/-- `intersection_depth`, perspective (lines 237-248, 256, 272). -/
noncomputable def depth (r : ℝ) (C u : V3 ℝ) : ℝ :=
  min (dot C u) (len C) - halfChord r (cp1 (len C) (dot C u))

open Classical in
/-- The final closeness (lines 131, 201-209). -/
noncomputable def closeness (k : Cam) (r : ℝ) (C u : V3 ℝ) : ℝ :=
  if centerPixel k (len C) (chord C u) ∧ projRadius k (len C) r < 1 then 1 else saturate (1 - chord C u / r)

/-- The result of `draw`: `norm_dist_scaled`, `closeness * opacity`, `intersection_depth`. -/
structure Out where
  e : ℝ
  w : ℝ
  depth : ℝ

/-- `norm_dist_scaled` (lines 281-284). -/
noncomputable def exponent (k : Cam) (gamma opacity d : ℝ) : ℝ := (1 - (d - k.minDist) * (1 / (k.maxDist - k.minDist))) / gamma * opacity

open Classical in
/-- `draw`, perspective (lines 73-290). -/
noncomputable def draw (k : Cam) (gamma opacity r : ℝ) (C u : V3 ℝ) : Option Out :=
  if r < chord C u ∧ ¬ centerPixel k (len C) (chord C u) then none
  else some ⟨exponent k gamma opacity (depth r C u), closeness k r C u * opacity, depth r C u⟩

/-! ### Orthogonal projection -/

/-- The point of the image plane of the ray at `(x, y)` as used by `draw` (lines 103-111). -/
noncomputable def planeX (k : Cam) (x : ℝ) : ℝ := (x - k.W * (1 / 2)) * (2 * k.hps)
noncomputable def planeY (k : Cam) (y : ℝ) : ℝ := (y - k.H * (1 / 2)) * (2 * k.hps)

/-- `closeness_world`, orthogonal. -/
noncomputable def chordO (k : Cam) (C : V3 ℝ) (x y : ℝ) : ℝ := len ⟨C.x - planeX k x, C.y - planeY k y, 0⟩

/-- `ray_through_center_pixel`, orthogonal (lines 154-161). -/
def centerPixelO (k : Cam) (eps : ℝ) (C : V3 ℝ) (x y : ℝ) : Prop :=
  |C.x / (2 * k.hps) + (k.W - 1) / 2 - x| < 1 / 2 + eps ∧ |C.y / (2 * k.hps) + (k.H - 1) / 2 - y| < 1 / 2 + eps

/-- `intersection_depth`, orthogonal (lines 230-232). -/
noncomputable def depthO (k : Cam) (r : ℝ) (C : V3 ℝ) (x y : ℝ) : ℝ := |C.z| - halfChord r (chordO k C x y)

open Classical in
/-- `draw`, orthogonal. -/
noncomputable def drawO (k : Cam) (eps gamma opacity r : ℝ) (C : V3 ℝ) (x y : ℝ) : Option Out :=
  if r < chordO k C x y ∧ ¬ centerPixelO k eps C x y then none
  else some ⟨exponent k gamma opacity (depthO k r C x y),
    (if centerPixelO k eps C x y ∧ r / (2 * k.hps) < 1 then 1 else saturate (1 - chordO k C x y / r)) * opacity, depthO k r C x y⟩

/-! ### Screen area -/

/-- `sign_dir` (math.h:30-32). -/
noncomputable def signDir (x : ℝ) : ℝ := if x ≤ 0 then -1 else 1

/-- Clamp to [-1, 1]. -/
noncomputable def clamp1 (x : ℝ) : ℝ := min (max x (-1)) 1

/-- `o__c_` (renderer.get_screen_area.device.h:89-100). -/
noncomputable def oc (eps X Z : ℝ) : ℝ := max (Real.sqrt (X * X + Z * Z)) eps

noncomputable def alpha (eps X Z : ℝ) : ℝ := signDir X * Real.arccos (clamp1 (Z / oc eps X Z))
noncomputable def theta (eps r X Z : ℝ) : ℝ := Real.arcsin (clamp1 (r / oc eps X Z))

/-- `x_1`, `x_2` (lines 107-108, 111, 115-116, 126-127). -/
noncomputable def areaX (k : Cam) (eps r X Z : ℝ) : ℝ × ℝ :=
  (Real.tan (alpha eps X Z - theta eps r X Z) * k.f * (1 / (2 * k.hps)) + (k.W - 1) * (1 / 2),
   Real.tan (alpha eps X Z + theta eps r X Z) * k.f * (1 / (2 * k.hps)) + (k.W - 1) * (1 / 2))

/-- `y_1`, `y_2` (lines 109-110, 112, 117-118, 128-129). -/
noncomputable def areaY (k : Cam) (eps r Y Z : ℝ) : ℝ × ℝ :=
  (Real.tan (-signDir Y * Real.arccos (clamp1 (Z / oc eps Y Z)) - theta eps r Y Z) * k.f * -(1 / (2 * k.hps)) + (k.H - 1) * (1 / 2),
   Real.tan (-signDir Y * Real.arccos (clamp1 (Z / oc eps Y Z)) + theta eps r Y Z) * k.f * -(1 / (2 * k.hps)) + (k.H - 1) * (1 / 2))

/-- Orthogonal projection (lines 68-86). -/
noncomputable def areaO (k : Cam) (r X : ℝ) : ℝ × ℝ :=
  ((X - r) * (1 / (2 * k.hps)) + (k.W - 1) * (1 / 2), (X + r) * (1 / (2 * k.hps)) + (k.W - 1) * (1 / 2))

/-- The film in one direction: first pixel and number of pixels. -/
structure Film where
  left : Int
  width : Int

/-- `FMAX(x_1, x_2) <= left || FMIN(x_1, x_2) >= right - 0.5` (renderer.calc_signature.device.h:131-137; in y the second test is strict). -/
def offScreen (fm : Film) (p : ℝ × ℝ) : Prop := max p.1 p.2 ≤ (fm.left : ℝ) ∨ ((fm.left + fm.width : Int) : ℝ) - 1 / 2 ≤ min p.1 p.2

/-- The stored bounds, `max` exclusive (renderer.calc_signature.device.h:141-154; the numbers are not negative, so the cast is `floor`). -/
noncomputable def bounds (fm : Film) (p : ℝ × ℝ) : Int × Int :=
  (⌊max (min p.1 p.2) (fm.left : ℝ)⌋, ⌊min ((⌈max p.1 p.2⌉ : ℝ) + 1) ((fm.left + fm.width : Int) : ℝ)⌋)

/-- The test against the area of a block or a region, in one direction (renderer.render.device.h:188-190, renderer.create_selector.device.h:29-32):
the maximum of a block is exclusive but tested with `<=`. -/
def meets (b : Int × Int) (lo hi : Int) : Prop := b.1 ≤ hi ∧ lo < b.2

/-- The direction of the ray through pixel `(i, j)` in the coordinates of the camera (renderer.render.device.h:69-72; `PulsarCam` shows that the vectors
of the camera have this form). -/
noncomputable def pixelDir (k : Cam) (i j : ℝ) : V3 ℝ := ⟨(i - (k.W - 1) / 2) * (2 * k.hps), (j - (k.H - 1) / 2) * (2 * k.hps), k.f⟩

/-! ### Geometry of the perspective hit -/

theorem normSq_nonneg (v : V3 ℝ) : 0 ≤ normSq v := by
  simp only [normSq, dot]
  nlinarith [mul_self_nonneg v.x, mul_self_nonneg v.y, mul_self_nonneg v.z]

theorem len_sq (v : V3 ℝ) : len v ^ 2 = normSq v := Real.sq_sqrt (normSq_nonneg v)

theorem len_nonneg (v : V3 ℝ) : 0 ≤ len v := Real.sqrt_nonneg _

theorem cauchy (a b : V3 ℝ) : dot a b ^ 2 ≤ normSq a * normSq b := by
  simp only [normSq, dot]
  nlinarith [sq_nonneg (a.x * b.y - a.y * b.x), sq_nonneg (a.x * b.z - a.z * b.x), sq_nonneg (a.y * b.z - a.z * b.y)]

theorem dot_le_len (C u : V3 ℝ) (hu : normSq u = 1) : dot C u ≤ len C := by
  have h := cauchy C u
  rw [hu, mul_one, ← len_sq] at h
  exact le_of_sq_le_sq' h (len_nonneg C)
where
  le_of_sq_le_sq' {a b : ℝ} (h : a ^ 2 ≤ b ^ 2) (hb : 0 ≤ b) : a ≤ b := by
    by_contra hc
    nlinarith

theorem chord_sq (C u : V3 ℝ) (hu : normSq u = 1) : chord C u ^ 2 = 2 * len C * (len C - dot C u) := by
  have h1 := len_sq C
  rw [chord, len_sq]
  have : normSq (C - len C • u) = normSq C - 2 * len C * dot C u + len C ^ 2 * normSq u := by
    simp [normSq, dot]
    ring
  rw [this, hu, ← h1]
  ring

theorem chord_nonneg (C u : V3 ℝ) : 0 ≤ chord C u := len_nonneg _

/-- The hit test measures the chord at the distance of the centre, not the distance of the ray to the centre. -/
theorem chord_le_iff (C u : V3 ℝ) (hu : normSq u = 1) (r : ℝ) (hr : 0 ≤ r) (hC : 0 < len C) :
    chord C u ≤ r ↔ len C - r ^ 2 / (2 * len C) ≤ dot C u := by
  have h := chord_sq C u hu
  have h0 := chord_nonneg C u
  rw [sub_le_comm, le_div_iff₀ (by linarith)]
  constructor
  · intro hc
    have := pow_le_pow_left₀ h0 hc 2
    linarith
  · intro hc
    by_contra hn
    have := pow_lt_pow_left₀ (not_le.mp hn) hr (two_ne_zero)
    linarith

/-- The squared distance of the centre to the line of the ray. -/
theorem cp1_sq (C u : V3 ℝ) (hu : normSq u = 1) (h0 : 0 ≤ len C + dot C u) : cp1 (len C) (dot C u) ^ 2 = normSq (C - dot C u • u) := by
  have h1 := dot_le_len C u hu
  have h2 := len_sq C
  rw [cp1, max_eq_left (by linarith), Real.sq_sqrt (mul_nonneg h0 (by linarith))]
  have : normSq (C - dot C u • u) = normSq C - 2 * dot C u * dot C u + dot C u ^ 2 * normSq u := by
    simp [normSq, dot]
    ring
  rw [this, hu, ← h2]
  ring

theorem neg_len_le (C u : V3 ℝ) (hu : normSq u = 1) : 0 ≤ len C + dot C u := by
  have h := cauchy C u
  rw [hu, mul_one, ← len_sq] at h
  have := len_nonneg C
  by_contra hc
  nlinarith

/-- If the ray meets the sphere, the depth is that of the first point of the ray on the sphere. -/
theorem depth_first (r : ℝ) (C u : V3 ℝ) (hu : normSq u = 1) (hr : 0 ≤ r) (h : cp1 (len C) (dot C u) ≤ r) :
    normSq (depth r C u • u - C) = r ^ 2 ∧ ∀ s, s < depth r C u → r ^ 2 < normSq (s • u - C) := by
  have h1 := dot_le_len C u hu
  have hc := cp1_sq C u hu (neg_len_le C u hu)
  have hc0 : 0 ≤ cp1 (len C) (dot C u) := Real.sqrt_nonneg _
  have hp : halfChord r (cp1 (len C) (dot C u)) ^ 2 = r ^ 2 - cp1 (len C) (dot C u) ^ 2 := by
    rw [halfChord, max_eq_left (by linarith), Real.sq_sqrt (mul_nonneg (by linarith) (by linarith))]
    ring
  have hp0 : 0 ≤ halfChord r (cp1 (len C) (dot C u)) := Real.sqrt_nonneg _
  have key : ∀ s, normSq (s • u - C) = (s - dot C u) ^ 2 + cp1 (len C) (dot C u) ^ 2 := by
    intro s
    rw [hc]
    have e1 : normSq (s • u - C) = s ^ 2 * normSq u - 2 * s * dot C u + normSq C := by simp [normSq, dot]; ring
    have e2 : normSq (C - dot C u • u) = normSq C - 2 * dot C u * dot C u + dot C u ^ 2 * normSq u := by simp [normSq, dot]; ring
    rw [e1, e2, hu]
    ring
  rw [depth, min_eq_left h1]
  generalize halfChord r (cp1 (len C) (dot C u)) = p at *
  generalize cp1 (len C) (dot C u) = c at *
  generalize dot C u = o at *
  refine ⟨?_, fun s hs => ?_⟩
  · rw [key]
    nlinarith
  · rw [key]
    nlinarith

/-- A hit that is reported because of the chord is a real one. -/
theorem chord_hit (r : ℝ) (C u : V3 ℝ) (hu : normSq u = 1) (hr : 0 ≤ r) (hC : 0 < len C) (hrC : r ≤ len C) (h : chord C u ≤ r) :
    cp1 (len C) (dot C u) ≤ r := by
  have hi := (chord_le_iff C u hu r hr hC).mp h
  have h1 := dot_le_len C u hu
  rw [cp1, max_eq_left (by linarith)]
  apply Real.sqrt_le_iff.mpr
  refine ⟨hr, ?_⟩
  have hq : 0 ≤ r ^ 2 / (2 * len C) := by positivity
  have hq2 : r ^ 2 / (2 * len C) * (2 * len C) = r ^ 2 := by field_simp
  generalize r ^ 2 / (2 * len C) = q at *
  generalize dot C u = o at *
  generalize len C = t at *
  have hqt : q ≤ t := by nlinarith
  nlinarith

/-- So what is drawn through the chord test lies on the sphere, no nearer than `closest_possible_intersection` and no farther than the centre. -/
theorem chord_depth (r : ℝ) (C u : V3 ℝ) (hu : normSq u = 1) (hr : 0 ≤ r) (hC : 0 < len C) (hrC : r ≤ len C) (h : chord C u ≤ r) :
    normSq (depth r C u • u - C) = r ^ 2 ∧ (∀ s, s < depth r C u → r ^ 2 < normSq (s • u - C)) ∧ len C - r ≤ depth r C u ∧ depth r C u ≤ len C := by
  have hh := chord_hit r C u hu hr hC hrC h
  obtain ⟨d1, d2⟩ := depth_first r C u hu hr hh
  refine ⟨d1, d2, ?_, ?_⟩
  · by_contra hc
    have e2 : ∀ s, normSq (s • u - C) = s ^ 2 - 2 * s * dot C u + len C ^ 2 := by
      intro s
      have e1 : normSq (s • u - C) = s ^ 2 * normSq u - 2 * s * dot C u + normSq C := by simp [normSq, dot]; ring
      rw [e1, hu, ← len_sq]
      ring
    have ho := dot_le_len C u hu
    have hi := (chord_le_iff C u hu r hr hC).mp h
    -- the first point is `o - p`, and `p² = r² - t² + o²`
    have hp : depth r C u = dot C u - halfChord r (cp1 (len C) (dot C u)) := by rw [depth, min_eq_left ho]
    have hp0 : 0 ≤ halfChord r (cp1 (len C) (dot C u)) := Real.sqrt_nonneg _
    have ho0 : 0 ≤ dot C u := by
      have hq2 : r ^ 2 / (2 * len C) ≤ len C := by
        rw [div_le_iff₀ (by linarith)]
        nlinarith
      linarith
    rw [e2] at d1
    have hsq : halfChord r (cp1 (len C) (dot C u)) ^ 2 = r ^ 2 - len C ^ 2 + dot C u ^ 2 := by
      rw [hp] at d1
      linarith
    generalize halfChord r (cp1 (len C) (dot C u)) = p at *
    generalize dot C u = o at *
    generalize len C = t at *
    rw [hp] at hc
    -- `o + r - t < p`
    have hlt : o + r - t < p := by linarith
    by_cases hn : 0 ≤ o + r - t
    · have := pow_lt_pow_left₀ hlt hn two_ne_zero
      nlinarith
    · have hpo : p ^ 2 ≤ o ^ 2 := by nlinarith
      have hqt : r ^ 2 / (2 * t) ≤ r := by
        rw [div_le_iff₀ (by linarith)]
        nlinarith
      linarith
  · rw [depth]
    have hp0 : 0 ≤ halfChord r (cp1 (len C) (dot C u)) := Real.sqrt_nonneg _
    have := min_le_right (dot C u) (len C)
    linarith

/-- The converse fails: a ray that meets a large sphere can be left out.  Centre (0, 0, 5), radius 1.41: the ray (0, 7, 24)/25 passes at distance 1.4. -/
theorem ray_left_out : ∃ (r : ℝ) (C u : V3 ℝ), normSq u = 1 ∧ 0 < r ∧ r < len C ∧ cp1 (len C) (dot C u) < r ∧
    (∃ s : ℝ, 0 < s ∧ normSq (s • u - C) < r ^ 2) ∧
    ∀ gamma opacity, draw ⟨1 / 1000, 1, 1, 10, 100, 100⟩ gamma opacity r C u = none := by
  have hl : len ⟨0, 0, 5⟩ = 5 := by
    rw [len, show normSq (⟨0, 0, 5⟩ : V3 ℝ) = 5 ^ 2 by norm_num [normSq, dot]]
    exact Real.sqrt_sq (by norm_num)
  have hd : dot (⟨0, 0, 5⟩ : V3 ℝ) ⟨0, 7 / 25, 24 / 25⟩ = 24 / 5 := by norm_num [dot]
  have hu : normSq (⟨0, 7 / 25, 24 / 25⟩ : V3 ℝ) = 1 := by norm_num [normSq, dot]
  have hcs := chord_sq ⟨0, 0, 5⟩ ⟨0, 7 / 25, 24 / 25⟩ hu
  rw [hl, hd] at hcs
  have hc0 := chord_nonneg ⟨0, 0, 5⟩ ⟨0, 7 / 25, 24 / 25⟩
  have hgt : 141 / 100 < chord ⟨0, 0, 5⟩ ⟨0, 7 / 25, 24 / 25⟩ := by
    by_contra hn
    have := pow_le_pow_left₀ hc0 (not_lt.mp hn) 2
    rw [hcs] at this
    norm_num at this
  refine ⟨141 / 100, ⟨0, 0, 5⟩, ⟨0, 7 / 25, 24 / 25⟩, hu, by norm_num, by rw [hl]; norm_num, ?_, ⟨24 / 5, by norm_num, ?_⟩, ?_⟩
  · rw [hl, hd, cp1, max_eq_left (by norm_num)]
    rw [Real.sqrt_lt' (by norm_num)]
    norm_num
  · simp only [normSq, dot, smul_x, smul_y, smul_z, sub_x, sub_y, sub_z]
    norm_num
  · intro gamma opacity
    rw [draw, if_pos]
    refine ⟨hgt, ?_⟩
    simp only [centerPixel, hl]
    intro hn
    norm_num at hn
    linarith

theorem saturate_range (x : ℝ) : 0 ≤ saturate x ∧ saturate x ≤ 1 := ⟨le_max_left _ _, max_le zero_le_one (min_le_left _ _)⟩

/-- What `draw` passes to the blending: weights between 0 and the opacity. -/
theorem draw_weight (k : Cam) (gamma opacity r : ℝ) (C u : V3 ℝ) (ho : 0 ≤ opacity) (o : Out) (h : draw k gamma opacity r C u = some o) :
    0 ≤ o.w ∧ o.w ≤ opacity ∧ o.e = (1 - (o.depth - k.minDist) / (k.maxDist - k.minDist)) / gamma * opacity := by
  unfold draw at h
  split at h
  · exact absurd h (by simp)
  · have h := Option.some.inj h
    subst h
    have hc : 0 ≤ closeness k r C u ∧ closeness k r C u ≤ 1 := by
      unfold closeness
      split
      · exact ⟨zero_le_one, le_rfl⟩
      · exact saturate_range _
    refine ⟨mul_nonneg hc.1 ho, mul_le_of_le_one_left ho hc.2, ?_⟩
    simp only [exponent]
    ring

/-- Away from the tiny spheres the weight falls linearly from the centre to the silhouette of the chord test. -/
theorem closeness_large (k : Cam) (r : ℝ) (C u : V3 ℝ) (hr : 0 < r) (hbig : 1 ≤ projRadius k (len C) r) (h : chord C u ≤ r) :
    closeness k r C u = 1 - chord C u / r := by
  unfold closeness
  rw [if_neg (by intro hc; linarith [hc.2]), saturate, min_eq_right, max_eq_right]
  · rw [sub_nonneg, div_le_one hr]
    exact h
  · have := div_nonneg (chord_nonneg C u) hr.le
    linarith

/-- The pixel of the centre always shows the sphere, tiny spheres with full weight. -/
theorem center_pixel_drawn (k : Cam) (gamma opacity r : ℝ) (C u : V3 ℝ) (h : centerPixel k (len C) (chord C u)) :
    ∃ o, draw k gamma opacity r C u = some o ∧ (projRadius k (len C) r < 1 → o.w = opacity) := by
  refine ⟨_, if_neg (fun hn => hn.2 h), fun hp => ?_⟩
  simp only [closeness, if_pos (And.intro h hp), one_mul]

/-- Tiny spheres are an exception to the order by `closest_possible_intersection`: a sphere drawn only because its centre is near the pixel can have a
depth below `t_center - radius`, the value its place in the list and the depth threshold are based on. -/
theorem tiny_depth : ∃ (k : Cam) (r : ℝ) (C u : V3 ℝ), normSq u = 1 ∧ 0 < r ∧ r < len C ∧ (∃ o, draw k 1 1 r C u = some o ∧ o.depth < len C - r) := by
  have hl : len ⟨0, 0, 5⟩ = 5 := by
    rw [len, show normSq (⟨0, 0, 5⟩ : V3 ℝ) = 5 ^ 2 by norm_num [normSq, dot]]
    exact Real.sqrt_sq (by norm_num)
  have hd : dot (⟨0, 0, 5⟩ : V3 ℝ) ⟨0, 7 / 25, 24 / 25⟩ = 24 / 5 := by norm_num [dot]
  have hu : normSq (⟨0, 7 / 25, 24 / 25⟩ : V3 ℝ) = 1 := by norm_num [normSq, dot]
  have hcs := chord_sq ⟨0, 0, 5⟩ ⟨0, 7 / 25, 24 / 25⟩ hu
  rw [hl, hd] at hcs
  have hc0 := chord_nonneg ⟨0, 0, 5⟩ ⟨0, 7 / 25, 24 / 25⟩
  have hlt : chord ⟨0, 0, 5⟩ ⟨0, 7 / 25, 24 / 25⟩ < 3 / 2 := by
    by_contra hn
    have := pow_le_pow_left₀ (by norm_num) (not_lt.mp hn) 2
    rw [hcs] at this
    norm_num at this
  refine ⟨⟨1 / 5, 1, 1, 10, 4, 4⟩, 1 / 10, ⟨0, 0, 5⟩, ⟨0, 7 / 25, 24 / 25⟩, hu, by norm_num, by rw [hl]; norm_num, ⟨_, _, _⟩, if_neg (fun hn => hn.2 ?_), ?_⟩
  rotate_left
  · simp only [centerPixel, hl]
    norm_num
    linarith
  · simp only [depth, hl, hd]
    have : 0 ≤ halfChord (1 / 10) (cp1 5 (24 / 5)) := Real.sqrt_nonneg _
    rw [min_eq_left (by norm_num)]
    linarith

/-! ### Orthogonal projection -/

/-- The depth of a hit inside the disc is that of the first point of the line parallel to the axis. -/
theorem ortho_first (k : Cam) (r : ℝ) (C : V3 ℝ) (x y : ℝ) (hr : 0 ≤ r) (hz : 0 ≤ C.z) (h : chordO k C x y ≤ r) :
    normSq (⟨planeX k x, planeY k y, depthO k r C x y⟩ - C) = r ^ 2 ∧
    (∀ s, s < depthO k r C x y → r ^ 2 < normSq (⟨planeX k x, planeY k y, s⟩ - C)) ∧ C.z - r ≤ depthO k r C x y ∧ depthO k r C x y ≤ C.z := by
  have hc0 : 0 ≤ chordO k C x y := len_nonneg _
  have hp : halfChord r (chordO k C x y) ^ 2 = r ^ 2 - chordO k C x y ^ 2 := by
    rw [halfChord, max_eq_left (by linarith), Real.sq_sqrt (mul_nonneg (by linarith) (by linarith))]
    ring
  have hp0 : 0 ≤ halfChord r (chordO k C x y) := Real.sqrt_nonneg _
  have hcs : chordO k C x y ^ 2 = (C.x - planeX k x) ^ 2 + (C.y - planeY k y) ^ 2 := by
    rw [chordO, len_sq]
    simp [normSq, dot]
    ring
  have key : ∀ s, normSq (⟨planeX k x, planeY k y, s⟩ - C) = chordO k C x y ^ 2 + (s - C.z) ^ 2 := by
    intro s
    rw [hcs]
    simp [normSq, dot]
    ring
  rw [depthO, abs_of_nonneg hz]
  generalize halfChord r (chordO k C x y) = p at *
  generalize chordO k C x y = c at *
  refine ⟨?_, fun s hs => ?_, ?_, ?_⟩
  · rw [key]
    nlinarith
  · rw [key]
    nlinarith
  · have : p ≤ r := by nlinarith
    linarith
  · linarith

/-- `draw` and `get_screen_area` use offsets that differ by half a pixel: at the pixel where the projected centre falls the point of the plane is half
a pixel away from the centre in x and in y, so a sphere centred at a pixel does not have full weight there. -/
theorem ortho_offset (k : Cam) (C : V3 ℝ) (x y : ℝ) (hk : k.hps ≠ 0) (hx : C.x / (2 * k.hps) + (k.W - 1) / 2 = x) (hy : C.y / (2 * k.hps) + (k.H - 1) / 2 = y) :
    C.x - planeX k x = k.hps ∧ C.y - planeY k y = k.hps := by
  have h1 : C.x = (x - (k.W - 1) / 2) * (2 * k.hps) := by
    rw [← hx]
    field_simp
    ring
  have h2 : C.y = (y - (k.H - 1) / 2) * (2 * k.hps) := by
    rw [← hy]
    field_simp
    ring
  rw [planeX, planeY, h1, h2]
  constructor <;> ring

/-! ### Screen area, proofs -/

theorem oc_eq (eps X Z : ℝ) (he : eps ≤ Z) : oc eps X Z = Real.sqrt (X * X + Z * Z) := by
  rw [oc, max_eq_left]
  apply le_trans he
  apply Real.le_sqrt_of_sq_le
  nlinarith [mul_self_nonneg X]

/-- `alpha` is the angle of the centre to the axis and `theta` half of the angle under which the disc is seen. -/
theorem angles (eps r X Z : ℝ) (he : eps ≤ Z) (hZ : 0 < Z) (hr : 0 ≤ r) (hro : r ≤ oc eps X Z) :
    0 < oc eps X Z ∧ X = oc eps X Z * Real.sin (alpha eps X Z) ∧ Z = oc eps X Z * Real.cos (alpha eps X Z) ∧ r = oc eps X Z * Real.sin (theta eps r X Z) ∧
    0 ≤ Real.cos (theta eps r X Z) := by
  have ho := oc_eq eps X Z he
  have hpos : 0 < X * X + Z * Z := by nlinarith [mul_self_nonneg X]
  have ho0 : 0 < oc eps X Z := by rw [ho]; exact Real.sqrt_pos.mpr hpos
  have hsq : oc eps X Z ^ 2 = X * X + Z * Z := by rw [ho]; exact Real.sq_sqrt hpos.le
  have hZo : Z ≤ oc eps X Z := by
    by_contra hn
    nlinarith [mul_self_nonneg X]
  have hq0 : 0 ≤ Z / oc eps X Z := div_nonneg hZ.le ho0.le
  have hq1 : Z / oc eps X Z ≤ 1 := by rw [div_le_one ho0]; exact hZo
  have hcl : clamp1 (Z / oc eps X Z) = Z / oc eps X Z := by
    rw [clamp1, max_eq_left (by linarith), min_eq_left hq1]
  have hp0 : 0 ≤ r / oc eps X Z := div_nonneg hr ho0.le
  have hp1 : r / oc eps X Z ≤ 1 := by rw [div_le_one ho0]; exact hro
  have hcl2 : clamp1 (r / oc eps X Z) = r / oc eps X Z := by
    rw [clamp1, max_eq_left (by linarith), min_eq_left hp1]
  have hsin : oc eps X Z * Real.sin (Real.arccos (Z / oc eps X Z)) = |X| := by
    rw [Real.sin_arccos]
    have : 1 - (Z / oc eps X Z) ^ 2 = (|X| / oc eps X Z) ^ 2 := by
      rw [div_pow, div_pow, sq_abs]
      field_simp
      linarith
    rw [this, Real.sqrt_sq (by positivity)]
    field_simp
  have hcos : oc eps X Z * Real.cos (Real.arccos (Z / oc eps X Z)) = Z := by
    rw [Real.cos_arccos (by linarith) hq1]
    field_simp
  refine ⟨ho0, ?_, ?_, ?_, Real.cos_arcsin_nonneg _⟩
  · rw [alpha, hcl, signDir]
    split
    · rename_i h
      rw [neg_one_mul, Real.sin_neg, mul_neg, hsin, abs_of_nonpos h, neg_neg]
    · rename_i h
      rw [one_mul, hsin, abs_of_pos (not_le.mp h)]
  · rw [alpha, hcl, signDir]
    split
    · rw [neg_one_mul, Real.cos_neg, hcos]
    · rw [one_mul, hcos]
  · rw [theta, hcl2, Real.sin_arcsin (by linarith) hp1]
    field_simp

/-- Tangents to a disc: all its points are on one side. -/
theorem tangent_side (o a t px pz : ℝ) (hd : (px - o * Real.sin a) ^ 2 + (pz - o * Real.cos a) ^ 2 ≤ (o * Real.sin t) ^ 2) (hr : 0 ≤ o * Real.sin t) :
    px * Real.cos (a + t) ≤ pz * Real.sin (a + t) ∧ pz * Real.sin (a - t) ≤ px * Real.cos (a - t) := by
  have key : ∀ b, ((px - o * Real.sin a) * Real.cos b - (pz - o * Real.cos a) * Real.sin b) ^ 2 ≤ (o * Real.sin t) ^ 2 := by
    intro b
    have := Real.sin_sq_add_cos_sq b
    nlinarith [sq_nonneg ((px - o * Real.sin a) * Real.sin b + (pz - o * Real.cos a) * Real.cos b)]
  constructor
  · have h := abs_le_of_sq_le_sq' (key (a + t)) hr
    have hs : o * Real.sin a * Real.cos (a + t) - o * Real.cos a * Real.sin (a + t) = -(o * Real.sin t) := by
      have : Real.sin (a - (a + t)) = Real.sin a * Real.cos (a + t) - Real.cos a * Real.sin (a + t) := Real.sin_sub _ _
      rw [show a - (a + t) = -t by ring, Real.sin_neg] at this
      linear_combination -o * this
    nlinarith [h.2]
  · have h := abs_le_of_sq_le_sq' (key (a - t)) hr
    have hs : o * Real.sin a * Real.cos (a - t) - o * Real.cos a * Real.sin (a - t) = o * Real.sin t := by
      have : Real.sin (a - (a - t)) = Real.sin a * Real.cos (a - t) - Real.cos a * Real.sin (a - t) := Real.sin_sub _ _
      rw [show a - (a - t) = t by ring] at this
      linear_combination -o * this
    nlinarith [h.1]

/-- The two tangent directions point forward exactly if the disc is in front of the camera plane. -/
theorem cos_prod (eps r X Z : ℝ) (he : eps ≤ Z) (hZ : 0 < Z) (hr : 0 ≤ r) (hro : r ≤ oc eps X Z) :
    oc eps X Z ^ 2 * (Real.cos (alpha eps X Z + theta eps r X Z) * Real.cos (alpha eps X Z - theta eps r X Z)) = Z ^ 2 - r ^ 2 := by
  obtain ⟨-, -, h2, h3, -⟩ := angles eps r X Z he hZ hr hro
  have e : Real.cos (alpha eps X Z + theta eps r X Z) * Real.cos (alpha eps X Z - theta eps r X Z) =
      Real.cos (alpha eps X Z) ^ 2 - Real.sin (theta eps r X Z) ^ 2 := by
    rw [Real.cos_add, Real.cos_sub]
    have a1 := Real.sin_sq_add_cos_sq (alpha eps X Z)
    have a2 := Real.sin_sq_add_cos_sq (theta eps r X Z)
    linear_combination Real.cos (alpha eps X Z) ^ 2 * a2 - Real.sin (theta eps r X Z) ^ 2 * a1
  have g2 : Z ^ 2 = oc eps X Z ^ 2 * Real.cos (alpha eps X Z) ^ 2 := by rw [← mul_pow, ← h2]
  have g3 : r ^ 2 = oc eps X Z ^ 2 * Real.sin (theta eps r X Z) ^ 2 := by rw [← mul_pow, ← h3]
  rw [e, g2, g3]
  ring

theorem cos_sum (eps r X Z : ℝ) (he : eps ≤ Z) (hZ : 0 < Z) (hr : 0 ≤ r) (hro : r ≤ oc eps X Z) :
    0 ≤ Real.cos (alpha eps X Z + theta eps r X Z) + Real.cos (alpha eps X Z - theta eps r X Z) := by
  obtain ⟨h0, -, h2, -, h4⟩ := angles eps r X Z he hZ hr hro
  have hc : 0 < Real.cos (alpha eps X Z) := by
    by_contra hn
    have := mul_nonpos_of_nonneg_of_nonpos h0.le (not_lt.mp hn)
    linarith
  rw [Real.cos_add, Real.cos_sub]
  nlinarith [mul_nonneg hc.le h4]

theorem cos_both (eps r X Z : ℝ) (he : eps ≤ Z) (hr : 0 ≤ r) (hrZ : r < Z) :
    0 < Real.cos (alpha eps X Z + theta eps r X Z) ∧ 0 < Real.cos (alpha eps X Z - theta eps r X Z) := by
  have hZ : 0 < Z := by linarith
  have hro : r ≤ oc eps X Z := by
    rw [oc_eq eps X Z he]
    apply Real.le_sqrt_of_sq_le
    nlinarith [mul_self_nonneg X]
  have h1 := cos_prod eps r X Z he hZ hr hro
  have h2 := cos_sum eps r X Z he hZ hr hro
  have h3 : 0 < Z ^ 2 - r ^ 2 := by nlinarith
  generalize Real.cos (alpha eps X Z + theta eps r X Z) = a at *
  generalize Real.cos (alpha eps X Z - theta eps r X Z) = b at *
  have hab : 0 < a * b := by
    by_contra hn
    have := mul_nonpos_of_nonneg_of_nonpos (sq_nonneg (oc eps X Z)) (not_lt.mp hn)
    linarith
  rcases pos_and_pos_or_neg_and_neg_of_mul_pos hab with h | h
  · exact h
  · linarith [h.1, h.2]

/-- Every point of a ball that is in front of the camera plane projects into the screen area, in x … -/
theorem area_x (k : Cam) (eps r : ℝ) (C P : V3 ℝ) (hk : 0 < k.hps) (hf : 0 < k.f) (he : eps ≤ C.z) (hr : 0 ≤ r) (hrZ : r < C.z) (hP : normSq (P - C) ≤ r ^ 2) :
    (areaX k eps r C.x C.z).1 ≤ P.x / P.z * k.f / (2 * k.hps) + (k.W - 1) / 2 ∧
    P.x / P.z * k.f / (2 * k.hps) + (k.W - 1) / 2 ≤ (areaX k eps r C.x C.z).2 := by
  have hZ : 0 < C.z := by linarith
  have hro : r ≤ oc eps C.x C.z := by
    rw [oc_eq eps C.x C.z he]
    apply Real.le_sqrt_of_sq_le
    nlinarith [mul_self_nonneg C.x]
  obtain ⟨-, h1, h2, h3, -⟩ := angles eps r C.x C.z he hZ hr hro
  obtain ⟨c1, c2⟩ := cos_both eps r C.x C.z he hr hrZ
  have hdist : (P.x - C.x) ^ 2 + (P.z - C.z) ^ 2 ≤ r ^ 2 := by
    have : normSq (P - C) = (P.x - C.x) ^ 2 + (P.y - C.y) ^ 2 + (P.z - C.z) ^ 2 := by simp [normSq, dot]; ring
    nlinarith [sq_nonneg (P.y - C.y)]
  have hPz : 0 < P.z := by
    by_contra hn
    nlinarith [sq_nonneg (P.x - C.x)]
  obtain ⟨t1, t2⟩ := tangent_side (oc eps C.x C.z) (alpha eps C.x C.z) (theta eps r C.x C.z) P.x P.z (by rw [← h1, ← h2, ← h3]; exact hdist) (by rw [← h3]; exact hr)
  have s1 : P.x / P.z ≤ Real.tan (alpha eps C.x C.z + theta eps r C.x C.z) := by
    rw [Real.tan_eq_sin_div_cos, div_le_div_iff₀ hPz c1]
    linarith
  have s2 : Real.tan (alpha eps C.x C.z - theta eps r C.x C.z) ≤ P.x / P.z := by
    rw [Real.tan_eq_sin_div_cos, div_le_div_iff₀ c2 hPz]
    linarith
  simp only [areaX]
  have hfac : 0 ≤ k.f * (1 / (2 * k.hps)) := by positivity
  have g1 := mul_le_mul_of_nonneg_right s1 hfac
  have g2 := mul_le_mul_of_nonneg_right s2 hfac
  have e : P.x / P.z * k.f / (2 * k.hps) = P.x / P.z * (k.f * (1 / (2 * k.hps))) := by ring
  rw [e]
  constructor <;> linarith

/-- The bounds in y are those of the same formula as in x, in the other order. -/
theorem areaY_eq (k : Cam) (eps r Y Z : ℝ) : areaY k eps r Y Z = ((areaX { k with W := k.H } eps r Y Z).2, (areaX { k with W := k.H } eps r Y Z).1) := by
  simp only [areaY, areaX, alpha]
  congr 1
  · rw [show -signDir Y * Real.arccos (clamp1 (Z / oc eps Y Z)) - theta eps r Y Z = -(signDir Y * Real.arccos (clamp1 (Z / oc eps Y Z)) + theta eps r Y Z) by ring,
      Real.tan_neg]
    ring
  · rw [show -signDir Y * Real.arccos (clamp1 (Z / oc eps Y Z)) + theta eps r Y Z = -(signDir Y * Real.arccos (clamp1 (Z / oc eps Y Z)) - theta eps r Y Z) by ring,
      Real.tan_neg]
    ring

/-- … and in y. -/
theorem area_y (k : Cam) (eps r : ℝ) (C P : V3 ℝ) (hk : 0 < k.hps) (hf : 0 < k.f) (he : eps ≤ C.z) (hr : 0 ≤ r) (hrZ : r < C.z) (hP : normSq (P - C) ≤ r ^ 2) :
    (areaY k eps r C.y C.z).2 ≤ P.y / P.z * k.f / (2 * k.hps) + (k.H - 1) / 2 ∧
    P.y / P.z * k.f / (2 * k.hps) + (k.H - 1) / 2 ≤ (areaY k eps r C.y C.z).1 := by
  rw [areaY_eq]
  have hP' : normSq ((⟨P.y, P.x, P.z⟩ : V3 ℝ) - ⟨C.y, C.x, C.z⟩) ≤ r ^ 2 := by
    have e1 : normSq ((⟨P.y, P.x, P.z⟩ : V3 ℝ) - ⟨C.y, C.x, C.z⟩) = normSq (P - C) := by simp [normSq, dot]; ring
    rw [e1]
    exact hP
  exact area_x { k with W := k.H } eps r ⟨C.y, C.x, C.z⟩ ⟨P.y, P.x, P.z⟩ hk hf he hr hrZ hP'

/-- If the ball reaches behind the camera plane (its centre in front and to the right), one tangent direction points backwards, its tangent jumps
to the other side, and the area is the wrong part of the screen: every visible point of the ball projects to the right of it. -/
theorem area_wrong (k : Cam) (eps r : ℝ) (C P : V3 ℝ) (hk : 0 < k.hps) (hf : 0 < k.f) (he : eps ≤ C.z) (hZ : 0 < C.z) (hrZ : C.z < r) (hX : 0 < C.x)
    (hro : r ≤ oc eps C.x C.z) (hP : normSq (P - C) ≤ r ^ 2) (hPz : 0 < P.z) :
    max (areaX k eps r C.x C.z).1 (areaX k eps r C.x C.z).2 ≤ P.x / P.z * k.f / (2 * k.hps) + (k.W - 1) / 2 := by
  have hr : 0 ≤ r := by linarith
  obtain ⟨h0, h1, h2, h3, h4⟩ := angles eps r C.x C.z he hZ hr hro
  have hp := cos_prod eps r C.x C.z he hZ hr hro
  have hsum := cos_sum eps r C.x C.z he hZ hr hro
  have hdiff : 0 < Real.cos (alpha eps C.x C.z - theta eps r C.x C.z) - Real.cos (alpha eps C.x C.z + theta eps r C.x C.z) := by
    rw [Real.cos_add, Real.cos_sub]
    have s1 : 0 < Real.sin (alpha eps C.x C.z) := by
      by_contra hn
      have := mul_nonpos_of_nonneg_of_nonpos h0.le (not_lt.mp hn)
      linarith
    have s2 : 0 < Real.sin (theta eps r C.x C.z) := by
      by_contra hn
      have := mul_nonpos_of_nonneg_of_nonpos h0.le (not_lt.mp hn)
      linarith
    nlinarith [mul_pos s1 s2]
  have hc2 : 0 < Real.cos (alpha eps C.x C.z - theta eps r C.x C.z) := by linarith
  have hc1 : Real.cos (alpha eps C.x C.z + theta eps r C.x C.z) < 0 := by
    by_contra hn
    have := mul_nonneg (sq_nonneg (oc eps C.x C.z)) (mul_nonneg (not_lt.mp hn) hc2.le)
    rw [hp] at this
    nlinarith
  have hdist : (P.x - C.x) ^ 2 + (P.z - C.z) ^ 2 ≤ r ^ 2 := by
    have : normSq (P - C) = (P.x - C.x) ^ 2 + (P.y - C.y) ^ 2 + (P.z - C.z) ^ 2 := by simp [normSq, dot]; ring
    nlinarith [sq_nonneg (P.y - C.y)]
  obtain ⟨t1, t2⟩ := tangent_side (oc eps C.x C.z) (alpha eps C.x C.z) (theta eps r C.x C.z) P.x P.z (by rw [← h1, ← h2, ← h3]; exact hdist) (by rw [← h3]; exact hr)
  have s1 : Real.tan (alpha eps C.x C.z + theta eps r C.x C.z) ≤ P.x / P.z := by
    rw [Real.tan_eq_sin_div_cos, le_div_iff₀ hPz, div_mul_eq_mul_div, div_le_iff_of_neg hc1]
    linarith
  have s2 : Real.tan (alpha eps C.x C.z - theta eps r C.x C.z) ≤ P.x / P.z := by
    rw [Real.tan_eq_sin_div_cos, div_le_div_iff₀ hc2 hPz]
    linarith
  simp only [areaX]
  have hfac : 0 ≤ k.f * (1 / (2 * k.hps)) := by positivity
  have g1 := mul_le_mul_of_nonneg_right s1 hfac
  have g2 := mul_le_mul_of_nonneg_right s2 hfac
  have e : P.x / P.z * k.f / (2 * k.hps) = P.x / P.z * (k.f * (1 / (2 * k.hps))) := by ring
  rw [e]
  apply max_le <;> linarith

/-! ### Pixels -/

/-- The point of the ray of pixel `(i, j)` projects to `(i, j)`. -/
theorem pixelDir_projects (k : Cam) (i j s : ℝ) (hk : 0 < k.hps) (hf : 0 < k.f) (hs : 0 < s) :
    (s • pixelDir k i j).x / (s • pixelDir k i j).z * k.f / (2 * k.hps) + (k.W - 1) / 2 = i ∧
    (s • pixelDir k i j).y / (s • pixelDir k i j).z * k.f / (2 * k.hps) + (k.H - 1) / 2 = j := by
  simp only [smul_x, smul_y, smul_z, pixelDir]
  constructor <;>
  · field_simp
    ring

/-- All pixels of the film less than one pixel away from the interval are within the stored bounds. -/
theorem bounds_mem (fm : Film) (p : ℝ × ℝ) (i : Int) (h1 : min p.1 p.2 - 1 < (i : ℝ)) (h2 : (i : ℝ) < max p.1 p.2 + 1) (hl : fm.left ≤ i) (hr : i < fm.left + fm.width) :
    (bounds fm p).1 ≤ i ∧ i < (bounds fm p).2 := by
  have hl' : (fm.left : ℝ) ≤ i := by exact_mod_cast hl
  constructor
  · simp only [bounds]
    have : ⌊max (min p.1 p.2) (fm.left : ℝ)⌋ < i + 1 := by
      rw [Int.floor_lt]
      push_cast
      exact max_lt (by linarith) (by linarith)
    omega
  · simp only [bounds]
    have h3 : i ≤ ⌈max p.1 p.2⌉ := by
      have : (i : ℝ) < (⌈max p.1 p.2⌉ : ℝ) + 1 := lt_of_lt_of_le h2 (by linarith [Int.le_ceil (max p.1 p.2)])
      have : i < ⌈max p.1 p.2⌉ + 1 := by exact_mod_cast this
      omega
    have : i + 1 ≤ ⌊min ((⌈max p.1 p.2⌉ : ℝ) + 1) ((fm.left + fm.width : Int) : ℝ)⌋ := by
      rw [Int.le_floor]
      push_cast
      have h3' : (i : ℝ) ≤ (⌈max p.1 p.2⌉ : ℝ) := by exact_mod_cast h3
      have hr' : ((i + 1 : Int) : ℝ) ≤ ((fm.left + fm.width : Int) : ℝ) := by exact_mod_cast hr
      push_cast at hr'
      exact le_min (by linarith) hr'
    omega

/-- The block test does not lose a pixel. -/
theorem meets_pixel (b : Int × Int) (lo hi i : Int) (h : b.1 ≤ i ∧ i < b.2) (hlo : lo ≤ i) (hhi : i < hi) : meets b lo hi := ⟨by omega, by omega⟩

/-- A sphere strictly inside whose interval there is a pixel of the film is not taken for off screen. -/
theorem onScreen (fm : Film) (p : ℝ × ℝ) (i : Int) (h1 : min p.1 p.2 ≤ (i : ℝ)) (h2 : (i : ℝ) < max p.1 p.2) (hl : fm.left ≤ i) (hr : i < fm.left + fm.width) :
    ¬ offScreen fm p := by
  have hl' : (fm.left : ℝ) ≤ i := by exact_mod_cast hl
  have hr' : (i : ℝ) + 1 ≤ ((fm.left + fm.width : Int) : ℝ) := by exact_mod_cast hr
  rintro (h | h) <;> linarith

/-- The main statement: a pixel whose ray hits a sphere in front of the camera plane (chord test) is inside the bounds, so its block loads the sphere. -/
theorem hit_in_bounds (k : Cam) (eps r : ℝ) (C : V3 ℝ) (i j : Int) (fx fy : Film) (u : V3 ℝ) (s : ℝ) (hs : 0 < s) (hdir : pixelDir k i j = s • u) (hu : normSq u = 1)
    (hk : 0 < k.hps) (hf : 0 < k.f) (he : eps ≤ C.z) (hr : 0 < r) (hrZ : r < C.z) (h : chord C u ≤ r)
    (hx : fx.left ≤ i ∧ i < fx.left + fx.width) (hy : fy.left ≤ j ∧ j < fy.left + fy.width) :
    ((bounds fx (areaX k eps r C.x C.z)).1 ≤ i ∧ i < (bounds fx (areaX k eps r C.x C.z)).2) ∧
    ((bounds fy (areaY k eps r C.y C.z)).1 ≤ j ∧ j < (bounds fy (areaY k eps r C.y C.z)).2) := by
  have hlen : C.z ≤ len C := by
    apply Real.le_sqrt_of_sq_le
    simp only [normSq, dot]
    nlinarith [mul_self_nonneg C.x, mul_self_nonneg C.y]
  obtain ⟨d1, -, d3, -⟩ := chord_depth r C u hu hr.le (by linarith) (by linarith) h
  have hd0 : 0 < depth r C u := by linarith
  have hP : depth r C u • u = (depth r C u / s) • pixelDir k i j := by
    rw [hdir]
    ext <;> simp <;> field_simp
  obtain ⟨p1, p2⟩ := pixelDir_projects k i j (depth r C u / s) hk hf (div_pos hd0 hs)
  rw [hP] at d1
  obtain ⟨a1, a2⟩ := area_x k eps r C _ hk hf he hr.le hrZ d1.le
  obtain ⟨b1, b2⟩ := area_y k eps r C _ hk hf he hr.le hrZ d1.le
  rw [p1] at a1 a2
  rw [p2] at b1 b2
  constructor
  · apply bounds_mem fx _ i _ _ hx.1 hx.2
    · have := min_le_left (areaX k eps r C.x C.z).1 (areaX k eps r C.x C.z).2
      linarith
    · have := le_max_right (areaX k eps r C.x C.z).1 (areaX k eps r C.x C.z).2
      linarith
  · apply bounds_mem fy _ j _ _ hy.1 hy.2
    · have := min_le_right (areaY k eps r C.y C.z).1 (areaY k eps r C.y C.z).2
      linarith
    · have := le_max_left (areaY k eps r C.y C.z).1 (areaY k eps r C.y C.z).2
      linarith

/-- Orthogonal projection: in spite of the half pixel the pixels of the disc are within the bounds. -/
theorem ortho_in_bounds (k : Cam) (r : ℝ) (C : V3 ℝ) (i : Int) (y : ℝ) (fx : Film) (hk : 0 < k.hps) (h : chordO k C i y ≤ r) (hx : fx.left ≤ i ∧ i < fx.left + fx.width) :
    (bounds fx (areaO k r C.x)).1 ≤ i ∧ i < (bounds fx (areaO k r C.x)).2 := by
  have hc0 : 0 ≤ chordO k C i y := len_nonneg _
  have hcs : chordO k C i y ^ 2 = (C.x - planeX k i) ^ 2 + (C.y - planeY k y) ^ 2 := by
    rw [chordO, len_sq]
    simp [normSq, dot]
    ring
  have habs : |C.x - planeX k i| ≤ r := by
    apply abs_le_of_sq_le_sq _ (by linarith)
    nlinarith [sq_nonneg (C.y - planeY k y)]
  have hab := abs_le.mp habs
  have hi : (i : ℝ) = planeX k i * (1 / (2 * k.hps)) + k.W * (1 / 2) := by
    rw [planeX]
    field_simp
    ring
  have hfac : 0 ≤ 1 / (2 * k.hps) := by positivity
  have g1 := mul_le_mul_of_nonneg_right (show C.x - r ≤ planeX k i by linarith) hfac
  have g2 := mul_le_mul_of_nonneg_right (show planeX k i ≤ C.x + r by linarith) hfac
  apply bounds_mem fx _ i _ _ hx.1 hx.2
  · have := min_le_left (areaO k r C.x).1 (areaO k r C.x).2
    simp only [areaO] at *
    linarith
  · have := le_max_right (areaO k r C.x).1 (areaO k r C.x).2
    simp only [areaO] at *
    linarith

/-- But the first column can be lost: a disc that covers pixel 0 by less than half a pixel is taken for off screen. -/
theorem ortho_border : ∃ (k : Cam) (r : ℝ) (C : V3 ℝ) (y : ℝ), 0 < k.hps ∧ chordO k C 0 y ≤ r ∧ offScreen ⟨0, 100⟩ (areaO k r C.x) := by
  refine ⟨⟨1 / 2, 0, 1, 10, 100, 100⟩, 5, ⟨-(109 / 2), 0, 5⟩, 50, by norm_num, ?_, ?_⟩
  · apply Real.sqrt_le_iff.mpr
    norm_num [normSq, dot, planeX, planeY]
  · left
    norm_num [areaO]

/-- Perspective, tiny spheres: within three quarters of a pixel to the left of the first pixel they are off screen, to the right of the last pixel
(up to half a pixel) they are not. -/
theorem border_asymmetric (x : ℝ) (w : ℝ) (hw : 0 ≤ w) (fm : Film) :
    (x + w ≤ (fm.left : ℝ) → offScreen fm (x - w, x + w)) ∧
    ((fm.left : ℝ) < x + w → x - w < ((fm.left + fm.width : Int) : ℝ) - 1 / 2 → ¬ offScreen fm (x - w, x + w)) := by
  have e1 : max (x - w) (x + w) = x + w := max_eq_right (by linarith)
  have e2 : min (x - w) (x + w) = x - w := min_eq_left (by linarith)
  simp only [offScreen, e1, e2]
  exact ⟨fun h => Or.inl h, fun h1 h2 => by rintro (h | h) <;> linarith⟩

/-! ### Examples -/

/-- A ray through the centre: depth `t - r` and full weight. -/
example : depth 1 ⟨0, 0, 5⟩ ⟨0, 0, 1⟩ = 4 ∧ chord ⟨0, 0, 5⟩ ⟨0, 0, 1⟩ = 0 := by
  have hl : len ⟨0, 0, 5⟩ = 5 := by
    rw [len, show normSq (⟨0, 0, 5⟩ : V3 ℝ) = 5 ^ 2 by norm_num [normSq, dot]]
    exact Real.sqrt_sq (by norm_num)
  constructor
  · norm_num [depth, hl, halfChord, cp1, dot]
  · rw [chord, hl, len]
    norm_num [normSq, dot]

/-- The sphere with centre (2, 0, 1) and radius 3/2 is nearer than its distance suggests to no camera plane: all of it that can be seen lies to the right
of the area; the direction (1, 0, 1) shows it, and `area_wrong` applies to the point (1, 0, 1). -/
example (k : Cam) (hk : 0 < k.hps) (hf : 0 < k.f) : max (areaX k (1 / 1000000) (3 / 2) 2 1).1 (areaX k (1 / 1000000) (3 / 2) 2 1).2 ≤
    k.f / (2 * k.hps) + (k.W - 1) / 2 := by
  have h := area_wrong k (1 / 1000000) (3 / 2) ⟨2, 0, 1⟩ ⟨1, 0, 1⟩ hk hf (by norm_num) (by norm_num) (by norm_num) (by norm_num)
    (by
      rw [oc_eq _ _ _ (by norm_num)]
      apply Real.le_sqrt_of_sq_le
      norm_num)
    (by norm_num [normSq, dot]) (by norm_num)
  simpa using h

/-- Bounds of the interval [2.6, 3.2] on a film of 10 pixels. -/
example : bounds ⟨0, 10⟩ (26 / 10, 32 / 10) = (2, 5) := by
  have hc : ⌈(32 / 10 : ℝ)⌉ = 4 := by rw [Int.ceil_eq_iff]; norm_num
  simp only [bounds, show max (26 / 10 : ℝ) (32 / 10) = 32 / 10 by norm_num [max_def], hc]
  norm_num [min_def, max_def, Int.floor_eq_iff]

/-! ### Together with the loop -/

/-- A sphere that `draw` reports because of the chord and that begins behind the depth threshold has less than `pad / (1 - pad)` of the weight that was
drawn before: the hypotheses of `PulsarRender.threshold_weight` hold for what `draw` computes. -/
theorem behind_threshold (c : PulsarRender.Cfg) (s : PulsarRender.Pix) (k : Cam) (hk : k.minDist = c.minDist ∧ k.maxDist = c.maxDist) (hg : 0 < c.gamma) (hp : 0 < c.pad)
    (hp1 : c.pad < 1) (hr : c.minDist < c.maxDist) (he : 0 ≤ c.eps) (hd : 0 < s.d) (opacity r : ℝ) (C u : V3 ℝ) (ho : 0 ≤ opacity ∧ opacity ≤ 1) (hu : normSq u = 1)
    (hr0 : 0 ≤ r) (hC : 0 < len C) (hrC : r ≤ len C) (h : chord C u ≤ r) (hmax : len C ≤ c.maxDist) (ht : PulsarRender.threshold c s < len C - r) :
    ∃ o, draw k c.gamma opacity r C u = some o ∧ o.w * Real.exp o.e < c.pad / (1 - c.pad) * ((s.d + c.eps) * Real.exp s.m) := by
  obtain ⟨-, -, d3, d4⟩ := chord_depth r C u hu hr0 hC hrC h
  refine ⟨_, if_neg (fun hn => absurd hn.1 (not_lt.mpr h)), ?_⟩
  have hc : closeness k r C u ≤ 1 := by
    unfold closeness
    split
    · exact le_rfl
    · exact (saturate_range _).2
  have := PulsarRender.threshold_weight c s hg hp hp1 hr he hd (len C - r) (depth r C u) opacity (closeness k r C u) ht d3 (by linarith) ho.1 ho.2 hc
  simp only [exponent, hk.1, hk.2, mul_one_div]
  exact this

end P3D.PulsarDraw
