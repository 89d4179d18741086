/-
What clipping the triangles of a box does (`csrc/iou_box3d/iou_utils.h:432-732`): the pieces of a
triangle are exactly the part of it inside the plane, and the volumes over them add up; the condition
under which this holds, and what holds without it.
-/
import Verif.IoU

set_option linter.unusedSectionVars false

namespace P3D.IoU

open V3

variable {K : Type} [Field K] [LinearOrder K] [IsStrictOrderedRing K]

/-! ### Specification -/

/-- The points of a triangle. -/
def Hull (t : Tri K) (p : V3 K) : Prop :=
  ∃ a b c : K, 0 ≤ a ∧ 0 ≤ b ∧ 0 ≤ c ∧ a + b + c = 1 ∧ p = a • t.v0 + b • t.v1 + c • t.v2

/-- The points of a list of triangles. -/
def Cover (l : List (Tri K)) (p : V3 K) : Prop := ∃ t ∈ l, Hull t p

/-- When the thresholds of the code are harmless for a triangle and a plane: if the triangle is taken for
coplanar it is inside, and no edge that crosses the plane is nearly parallel to it. -/
def Sharp (q : Quad K) (n : V3 K) (t : Tri K) : Prop :=
  (tpS t q n = true → ∀ v ∈ t.verts, 0 ≤ height q n v) ∧
    ∀ u ∈ t.verts, ∀ v ∈ t.verts, 0 ≤ height q n u → height q n v < 0 → Steep (v - u) n

instance (q : Quad K) (n : V3 K) (t : Tri K) : Decidable (Sharp q n t) := by
  unfold Sharp; infer_instance

/-- `Sharp` at every step of `BoxIntersections`. -/
def SharpAll (c : V3 K) : List (Tri K) → List (Quad K) → Prop
  | _, [] => True
  | l, q :: qs => (∀ t ∈ l, Sharp q (dirS q c) t) ∧ SharpAll c (cut (sq K) c l q) qs

instance instSharpAll (c : V3 K) : ∀ (l : List (Tri K)) (qs : List (Quad K)), Decidable (SharpAll c l qs)
  | _, [] => isTrue trivial
  | l, q :: qs => @instDecidableAnd _ _ inferInstance (instSharpAll c (cut (sq K) c l q) qs)

/-! ### Heights -/

theorem height_comb (q : Quad K) (n u v w : V3 K) {a b c : K} (h : a + b + c = 1) :
    height q n (a • u + b • v + c • w)
      = a * height q n u + b * height q n v + c * height q n w := by
  simp only [height, dot, add_x, add_y, add_z, sub_x, sub_y, sub_z, smul_x, smul_y, smul_z]
  linear_combination (n.x * (planeCenter q).x + n.y * (planeCenter q).y + n.z * (planeCenter q).z) * h

theorem dot_eq_height (q : Quad K) (n u v : V3 K) : dot (v - u) n = height q n v - height q n u := by
  simp only [height, dot, sub_x, sub_y, sub_z]; ring

/-- The coefficient of the point where an edge crosses the plane. -/
def coef (hu hv : K) : K := hu / (hu - hv)

theorem coef_mem {hu hv : K} (h1 : 0 ≤ hu) (h2 : hv < 0) : 0 ≤ coef hu hv ∧ coef hu hv < 1 := by
  have : 0 < hu - hv := by linarith
  exact ⟨div_nonneg h1 this.le, (div_lt_one this).2 (by linarith)⟩

theorem coef_mul {hu hv : K} (h1 : 0 ≤ hu) (h2 : hv < 0) : coef hu hv * (hu - hv) = hu :=
  div_mul_cancel₀ _ (by linarith)

theorem crossing_coef (q : Quad K) (n u v : V3 K) :
    crossing q n u v = (1 - coef (height q n u) (height q n v)) • u
      + coef (height q n u) (height q n v) • v := by
  have : -1 * dot (u - planeCenter q) n / dot (v - u) n = coef (height q n u) (height q n v) := by
    rw [dot_eq_height q n u v, coef, show dot (u - planeCenter q) n = height q n u from rfl,
      ← neg_sub (height q n u), div_neg, neg_one_mul, neg_div, neg_neg]
  rw [crossing, this]
  ext <;> simp <;> ring

/-! ### One vertex outside, two vertices outside -/

theorem hull_perm1 {a b c p : V3 K} : Hull ⟨a, b, c⟩ p ↔ Hull ⟨b, a, c⟩ p := by
  constructor <;> rintro ⟨x, y, z, hx, hy, hz, hs, rfl⟩
  · exact ⟨y, x, z, hy, hx, hz, by linarith, by simp only; abel⟩
  · exact ⟨y, x, z, hy, hx, hz, by linarith, by simp only; abel⟩

theorem hull_perm2 {a b c p : V3 K} : Hull ⟨a, b, c⟩ p ↔ Hull ⟨a, c, b⟩ p := by
  constructor <;> rintro ⟨x, y, z, hx, hy, hz, hs, rfl⟩
  · exact ⟨x, z, y, hx, hz, hy, by linarith, by simp only; abel⟩
  · exact ⟨x, z, y, hx, hz, hy, by linarith, by simp only; abel⟩

theorem edgeS_steep (q : Quad K) (n u v : V3 K) (h : Steep (v - u) n) :
    edgeS q n u v = (1 - coef (height q n u) (height q n v)) • u
      + coef (height q n u) (height q n v) • v := by
  rw [edgeS, if_pos h, crossing_coef]

theorem oneOut_hull (q : Quad K) (n o i j p : V3 K) (ho : height q n o < 0)
    (hi : 0 ≤ height q n i) (hj : 0 ≤ height q n j) (si : Steep (o - i) n) (sj : Steep (o - j) n) :
    Cover (oneOut (edgeS q n) o i j) p ↔ Hull ⟨i, j, o⟩ p ∧ 0 ≤ height q n p := by
  have e1 := edgeS_steep q n i o si
  have e2 := edgeS_steep q n j o sj
  have ha := coef_mem hi ho
  have hb := coef_mem hj ho
  have ma := coef_mul hi ho
  have mb := coef_mul hj ho
  simp only [Cover, oneOut, List.mem_cons, List.not_mem_nil, or_false, exists_eq_or_imp,
    exists_eq_left, e1, e2]
  set α := coef (height q n i) (height q n o)
  set β := coef (height q n j) (height q n o)
  constructor
  · rintro (⟨x, y, z, hx, hy, hz, hs, rfl⟩ | ⟨x, y, z, hx, hy, hz, hs, rfl⟩)
    · have hp : x • i + y • ((1 - α) • i + α • o) + z • ((1 - β) • j + β • o)
          = (x + y * (1 - α)) • i + (z * (1 - β)) • j + (y * α + z * β) • o := by
        ext <;> simp <;> ring
      have hs' : x + y * (1 - α) + z * (1 - β) + (y * α + z * β) = 1 := by linear_combination hs
      simp only [hp]
      refine ⟨⟨_, _, _, ?_, ?_, ?_, hs', rfl⟩, ?_⟩
      · exact add_nonneg hx (mul_nonneg hy (by linarith))
      · exact mul_nonneg hz (by linarith)
      · exact add_nonneg (mul_nonneg hy ha.1) (mul_nonneg hz hb.1)
      · rw [height_comb _ _ _ _ _ hs']
        have : (x + y * (1 - α)) * height q n i + z * (1 - β) * height q n j
            + (y * α + z * β) * height q n o = x * height q n i := by
          linear_combination (-y) * ma + (-z) * mb
        rw [this]; exact mul_nonneg hx hi
    · have hp : x • i + y • ((1 - β) • j + β • o) + z • j
          = x • i + (y * (1 - β) + z) • j + (y * β) • o := by
        ext <;> simp <;> ring
      have hs' : x + (y * (1 - β) + z) + y * β = 1 := by linear_combination hs
      simp only [hp]
      refine ⟨⟨_, _, _, hx, ?_, ?_, hs', rfl⟩, ?_⟩
      · exact add_nonneg (mul_nonneg hy (by linarith)) hz
      · exact mul_nonneg hy hb.1
      · rw [height_comb _ _ _ _ _ hs']
        have : x * height q n i + (y * (1 - β) + z) * height q n j + y * β * height q n o
            = x * height q n i + z * height q n j := by
          linear_combination (-y) * mb
        rw [this]; exact add_nonneg (mul_nonneg hx hi) (mul_nonneg hz hj)
  · rintro ⟨⟨x, y, z, hx, hy, hz, hs, hp⟩, hh⟩
    rw [hp, height_comb _ _ _ _ _ hs] at hh
    simp only at hp
    subst hp
    set hI := height q n i
    set hJ := height q n j
    set hO := height q n o
    by_cases hc : 0 ≤ y * hJ + z * hO
    · right
      by_cases hJ0 : hJ = 0
      · have hz0 : z = 0 := by
          rw [hJ0] at hc
          have : z * hO ≤ 0 := mul_nonpos_of_nonneg_of_nonpos hz ho.le
          have : z * hO = 0 := by linarith
          exact (mul_eq_zero.1 this).resolve_right ho.ne
        refine ⟨x, 0, y, hx, le_rfl, hy, by linarith, ?_⟩
        rw [hz0]; ext <;> simp
      · have hJp : 0 < hJ := lt_of_le_of_ne hj (Ne.symm hJ0)
        have hb' : β = hJ / (hJ - hO) := rfl
        have hd : hJ - hO ≠ 0 := by linarith
        refine ⟨x, z * (hJ - hO) / hJ, (y * hJ + z * hO) / hJ, hx,
          div_nonneg (mul_nonneg hz (by linarith)) hJp.le, div_nonneg hc hJp.le, ?_, ?_⟩
        · field_simp; linear_combination hJ * hs
        · rw [hb']
          ext <;> simp <;> field_simp <;> ring
    · left
      push Not at hc
      have hIp : 0 < hI := by
        rcases hi.lt_or_eq with h | h
        · exact h
        · rw [← h] at hh; linarith
      have ha' : α = hI / (hI - hO) := rfl
      have hb' : β = hJ / (hJ - hO) := rfl
      have hd1 : hI - hO ≠ 0 := by linarith
      have hd2 : hJ - hO ≠ 0 := by linarith
      have hO' : 0 < -hO := by linarith
      have hO0 : hO ≠ 0 := ho.ne
      refine ⟨(x * hI + y * hJ + z * hO) / hI, -(y * hJ + z * hO) * (hI - hO) / (-hO * hI),
        y * (hJ - hO) / (-hO), div_nonneg hh hIp.le, ?_, ?_, ?_, ?_⟩
      · exact div_nonneg (mul_nonneg (by linarith) (by linarith)) (mul_pos hO' hIp).le
      · exact div_nonneg (mul_nonneg hy (by linarith)) hO'.le
      · field_simp; linear_combination hI * hO * hs
      · rw [ha', hb']
        ext <;> simp <;> field_simp <;> ring

theorem twoOut_hull (q : Quad K) (n o1 o2 i p : V3 K) (h1 : height q n o1 < 0)
    (h2 : height q n o2 < 0) (hi : 0 ≤ height q n i) (s1 : Steep (o1 - i) n) (s2 : Steep (o2 - i) n) :
    Cover (twoOut (edgeS q n) o1 o2 i) p ↔ Hull ⟨i, o1, o2⟩ p ∧ 0 ≤ height q n p := by
  have e1 := edgeS_steep q n i o1 s1
  have e2 := edgeS_steep q n i o2 s2
  have ha := coef_mem hi h1
  have hb := coef_mem hi h2
  have ma := coef_mul hi h1
  have mb := coef_mul hi h2
  simp only [Cover, twoOut, List.mem_cons, List.not_mem_nil, or_false, exists_eq_left, e1, e2]
  set α := coef (height q n i) (height q n o1)
  set β := coef (height q n i) (height q n o2)
  constructor
  · rintro ⟨x, y, z, hx, hy, hz, hs, rfl⟩
    have hp : x • i + y • ((1 - α) • i + α • o1) + z • ((1 - β) • i + β • o2)
        = (x + y * (1 - α) + z * (1 - β)) • i + (y * α) • o1 + (z * β) • o2 := by
      ext <;> simp <;> ring
    have hs' : x + y * (1 - α) + z * (1 - β) + y * α + z * β = 1 := by linear_combination hs
    simp only [hp]
    refine ⟨⟨_, _, _, ?_, ?_, ?_, hs', rfl⟩, ?_⟩
    · exact add_nonneg (add_nonneg hx (mul_nonneg hy (by linarith))) (mul_nonneg hz (by linarith))
    · exact mul_nonneg hy ha.1
    · exact mul_nonneg hz hb.1
    · rw [height_comb _ _ _ _ _ hs']
      have : (x + y * (1 - α) + z * (1 - β)) * height q n i + y * α * height q n o1
          + z * β * height q n o2 = x * height q n i := by
        linear_combination (-y) * ma + (-z) * mb
      rw [this]; exact mul_nonneg hx hi
  · rintro ⟨⟨x, y, z, hx, hy, hz, hs, hp⟩, hh⟩
    rw [hp, height_comb _ _ _ _ _ hs] at hh
    simp only at hp
    subst hp
    set hI := height q n i
    set hA := height q n o1
    set hB := height q n o2
    by_cases hI0 : hI = 0
    · rw [hI0] at hh
      have a1 : y * hA ≤ 0 := mul_nonpos_of_nonneg_of_nonpos hy h1.le
      have a2 : z * hB ≤ 0 := mul_nonpos_of_nonneg_of_nonpos hz h2.le
      have y0 : y = 0 := (mul_eq_zero.1 (show y * hA = 0 by linarith)).resolve_right h1.ne
      have z0 : z = 0 := (mul_eq_zero.1 (show z * hB = 0 by linarith)).resolve_right h2.ne
      refine ⟨x, 0, 0, hx, le_rfl, le_rfl, by linarith, ?_⟩
      rw [y0, z0]; ext <;> simp
    · have hIp : 0 < hI := lt_of_le_of_ne hi (Ne.symm hI0)
      have ha' : α = hI / (hI - hA) := rfl
      have hb' : β = hI / (hI - hB) := rfl
      have hd1 : hI - hA ≠ 0 := by linarith
      have hd2 : hI - hB ≠ 0 := by linarith
      refine ⟨(x * hI + y * hA + z * hB) / hI, y * (hI - hA) / hI, z * (hI - hB) / hI,
        div_nonneg hh hIp.le, div_nonneg (mul_nonneg hy (by linarith)) hIp.le,
        div_nonneg (mul_nonneg hz (by linarith)) hIp.le, ?_, ?_⟩
      · field_simp; linear_combination hI * hs
      · rw [ha', hb']
        ext <;> simp <;> field_simp <;> ring

theorem inside_iff (q : Quad K) (n p : V3 K) : isInside q n p = true ↔ 0 ≤ height q n p :=
  decide_eq_true_iff

theorem inside_iff' (q : Quad K) (n p : V3 K) : isInside q n p = false ↔ height q n p < 0 := by
  rw [isInside, decide_eq_false_iff_not, not_le]

theorem hull_height {q : Quad K} {n p : V3 K} {t : Tri K} (h : ∀ v ∈ t.verts, 0 ≤ height q n v)
    (hp : Hull t p) : 0 ≤ height q n p := by
  obtain ⟨a, b, c, ha, hb, hc, hs, rfl⟩ := hp
  rw [height_comb _ _ _ _ _ hs]
  have h0 := h t.v0 (by simp [Tri.verts])
  have h1 := h t.v1 (by simp [Tri.verts])
  have h2 := h t.v2 (by simp [Tri.verts])
  exact add_nonneg (add_nonneg (mul_nonneg ha h0) (mul_nonneg hb h1)) (mul_nonneg hc h2)

theorem hull_height_neg {q : Quad K} {n p : V3 K} {t : Tri K} (h : ∀ v ∈ t.verts, height q n v < 0)
    (hp : Hull t p) : height q n p < 0 := by
  obtain ⟨a, b, c, ha, hb, hc, hs, rfl⟩ := hp
  rw [height_comb _ _ _ _ _ hs]
  have h0 := h t.v0 (by simp [Tri.verts])
  have h1 := h t.v1 (by simp [Tri.verts])
  have h2 := h t.v2 (by simp [Tri.verts])
  rcases ha.lt_or_eq with h' | h'
  · have := mul_neg_of_pos_of_neg h' h0
    have := mul_nonpos_of_nonneg_of_nonpos hb h1.le
    have := mul_nonpos_of_nonneg_of_nonpos hc h2.le
    linarith
  · rcases hb.lt_or_eq with h'' | h''
    · have := mul_nonpos_of_nonneg_of_nonpos ha h0.le
      have := mul_neg_of_pos_of_neg h'' h1
      have := mul_nonpos_of_nonneg_of_nonpos hc h2.le
      linarith
    · have hc1 : c = 1 := by linarith
      rw [← h', ← h'', hc1]; linarith

/-- **Clipping keeps exactly the part of the triangle inside the plane.** -/
theorem clip_hull (q : Quad K) (n : V3 K) (t : Tri K) (hs : Sharp q n t) (p : V3 K) :
    Cover (clip (sq K) q n t) p ↔ Hull t p ∧ 0 ≤ height q n p := by
  obtain ⟨hf, hst⟩ := hs
  have m0 : t.v0 ∈ t.verts := by simp [Tri.verts]
  have m1 : t.v1 ∈ t.verts := by simp [Tri.verts]
  have m2 : t.v2 ∈ t.verts := by simp [Tri.verts]
  have single : ∀ (_ : ∀ v ∈ t.verts, 0 ≤ height q n v),
      (Cover [t] p ↔ Hull t p ∧ 0 ≤ height q n p) := by
    intro h
    simp only [Cover, List.mem_singleton, exists_eq_left]
    exact ⟨fun hp => ⟨hp, hull_height h hp⟩, fun hp => hp.1⟩
  have hcop : (sq K).cop t q n = tpS t q n := rfl
  have hedge : (sq K).edge q n = edgeS q n := rfl
  unfold clip clipWith
  rw [hcop, hedge]
  by_cases hc : tpS t q n = true
  · rw [if_pos hc]; exact single (hf hc)
  · rw [if_neg hc]
    rcases h0 : isInside q n t.v0 with _ | _ <;> rcases h1 : isInside q n t.v1 with _ | _ <;>
      rcases h2 : isInside q n t.v2 with _ | _ <;>
      simp only [inside_iff, inside_iff'] at h0 h1 h2 <;> simp only
    · simp only [Cover, List.not_mem_nil, false_and, exists_false, false_iff, not_and, not_le]
      refine hull_height_neg fun v hv => ?_
      simp only [Tri.verts, List.mem_cons, List.not_mem_nil, or_false] at hv
      rcases hv with rfl | rfl | rfl <;> assumption
    · rw [twoOut_hull q n _ _ _ p h0 h1 h2 (hst _ m2 _ m0 h2 h0) (hst _ m2 _ m1 h2 h1),
        hull_perm1, hull_perm2]
    · rw [twoOut_hull q n _ _ _ p h0 h2 h1 (hst _ m1 _ m0 h1 h0) (hst _ m1 _ m2 h1 h2), hull_perm1]
    · rw [oneOut_hull q n _ _ _ p h0 h1 h2 (hst _ m1 _ m0 h1 h0) (hst _ m2 _ m0 h2 h0),
        hull_perm2, hull_perm1]
    · rw [twoOut_hull q n _ _ _ p h1 h2 h0 (hst _ m0 _ m1 h0 h1) (hst _ m0 _ m2 h0 h2)]
    · rw [oneOut_hull q n _ _ _ p h1 h0 h2 (hst _ m0 _ m1 h0 h1) (hst _ m2 _ m1 h2 h1), hull_perm2]
    · rw [oneOut_hull q n _ _ _ p h2 h0 h1 (hst _ m0 _ m2 h0 h2) (hst _ m1 _ m2 h1 h2)]
    · refine single fun v hv => ?_
      simp only [Tri.verts, List.mem_cons, List.not_mem_nil, or_false] at hv
      rcases hv with rfl | rfl | rfl <;> assumption

/-- One round of `BoxIntersections`. -/
theorem cut_cover (c : V3 K) (l : List (Tri K)) (q : Quad K)
    (hs : ∀ t ∈ l, Sharp q (dirS q c) t) (p : V3 K) :
    Cover (cut (sq K) c l q) p ↔ Cover l p ∧ 0 ≤ height q (dirS q c) p := by
  have hd : (sq K).dir q c = dirS q c := rfl
  simp only [Cover, cut, List.mem_flatMap, hd]
  constructor
  · rintro ⟨s, ⟨t, ht, hst⟩, hp⟩
    have := (clip_hull q (dirS q c) t (hs t ht) p).1 ⟨s, hst, hp⟩
    exact ⟨⟨t, ht, this.1⟩, this.2⟩
  · rintro ⟨⟨t, ht, hp⟩, hh⟩
    obtain ⟨s, h1, h2⟩ := (clip_hull q (dirS q c) t (hs t ht) p).2 ⟨hp, hh⟩
    exact ⟨s, ⟨t, ht, h1⟩, h2⟩

/-- **`BoxIntersections` keeps exactly the part of the triangles inside all planes.** -/
theorem boxIntersections_cover (c : V3 K) (l : List (Tri K)) (qs : List (Quad K))
    (hs : SharpAll c l qs) (p : V3 K) :
    Cover (boxIntersections (sq K) l qs c) p
      ↔ Cover l p ∧ ∀ q ∈ qs, 0 ≤ height q (dirS q c) p := by
  induction qs generalizing l with
  | nil => simp [boxIntersections]
  | cons q qs ih =>
    have h1 : boxIntersections (sq K) l (q :: qs) c
        = boxIntersections (sq K) (cut (sq K) c l q) qs c := rfl
    rw [h1, ih _ hs.2, cut_cover c l q hs.1]
    simp only [List.mem_cons, forall_eq_or_imp, and_assoc]

/-- No piece left means that nothing was inside. -/
theorem boxIntersections_nil (c : V3 K) (l : List (Tri K)) (qs : List (Quad K))
    (hs : SharpAll c l qs) :
    boxIntersections (sq K) l qs c = []
      ↔ ¬ ∃ p, Cover l p ∧ ∀ q ∈ qs, 0 ≤ height q (dirS q c) p := by
  constructor
  · rintro h ⟨p, hp⟩
    obtain ⟨t, ht, _⟩ := (boxIntersections_cover c l qs hs p).2 hp
    rw [h] at ht; simp at ht
  · intro h
    rcases hl : boxIntersections (sq K) l qs c with _ | ⟨t, l'⟩
    · rfl
    · refine absurd ⟨t.v0, (boxIntersections_cover c l qs hs t.v0).1 ⟨t, by rw [hl]; simp, ?_⟩⟩ h
      exact ⟨1, 0, 0, zero_le_one, le_rfl, le_rfl, by ring, by ext <;> simp⟩

/-! ### Without conditions: the pieces are part of the triangle -/

theorem edgeS_comb (q : Quad K) (n u v : V3 K) (hu : 0 ≤ height q n u) (hv : height q n v < 0) :
    ∃ a : K, 0 ≤ a ∧ a ≤ 1 ∧ edgeS q n u v = (1 - a) • u + a • v := by
  unfold edgeS
  by_cases h : Steep (v - u) n
  · rw [if_pos h, crossing_coef]
    exact ⟨_, (coef_mem hu hv).1, (coef_mem hu hv).2.le, rfl⟩
  · rw [if_neg h]
    refine ⟨1 / 2, by norm_num, by norm_num, ?_⟩
    simp only [middle]; ext <;> simp <;> ring

theorem oneOut_sub (q : Quad K) (n o i j p : V3 K) (ho : height q n o < 0)
    (hi : 0 ≤ height q n i) (hj : 0 ≤ height q n j)
    (h : Cover (oneOut (edgeS q n) o i j) p) : Hull ⟨i, j, o⟩ p := by
  obtain ⟨α, a0, a1, e1⟩ := edgeS_comb q n i o hi ho
  obtain ⟨β, b0, b1, e2⟩ := edgeS_comb q n j o hj ho
  simp only [Cover, oneOut, List.mem_cons, List.not_mem_nil, or_false, exists_eq_or_imp,
    exists_eq_left, e1, e2] at h
  rcases h with ⟨x, y, z, hx, hy, hz, hs, rfl⟩ | ⟨x, y, z, hx, hy, hz, hs, rfl⟩
  · refine ⟨x + y * (1 - α), z * (1 - β), y * α + z * β, ?_, ?_, ?_, ?_, ?_⟩
    · exact add_nonneg hx (mul_nonneg hy (by linarith))
    · exact mul_nonneg hz (by linarith)
    · exact add_nonneg (mul_nonneg hy a0) (mul_nonneg hz b0)
    · linear_combination hs
    · ext <;> simp <;> ring
  · refine ⟨x, y * (1 - β) + z, y * β, hx, ?_, ?_, ?_, ?_⟩
    · exact add_nonneg (mul_nonneg hy (by linarith)) hz
    · exact mul_nonneg hy b0
    · linear_combination hs
    · ext <;> simp <;> ring

theorem twoOut_sub (q : Quad K) (n o1 o2 i p : V3 K) (h1 : height q n o1 < 0)
    (h2 : height q n o2 < 0) (hi : 0 ≤ height q n i)
    (h : Cover (twoOut (edgeS q n) o1 o2 i) p) : Hull ⟨i, o1, o2⟩ p := by
  obtain ⟨α, a0, a1, e1⟩ := edgeS_comb q n i o1 hi h1
  obtain ⟨β, b0, b1, e2⟩ := edgeS_comb q n i o2 hi h2
  simp only [Cover, twoOut, List.mem_cons, List.not_mem_nil, or_false, exists_eq_left, e1, e2] at h
  obtain ⟨x, y, z, hx, hy, hz, hs, rfl⟩ := h
  refine ⟨x + y * (1 - α) + z * (1 - β), y * α, z * β, ?_, ?_, ?_, ?_, ?_⟩
  · exact add_nonneg (add_nonneg hx (mul_nonneg hy (by linarith))) (mul_nonneg hz (by linarith))
  · exact mul_nonneg hy a0
  · exact mul_nonneg hz b0
  · linear_combination hs
  · ext <;> simp <;> ring

/-- **Whatever the thresholds do, the pieces are part of the triangle.** -/
theorem clip_sub (q : Quad K) (n : V3 K) (t : Tri K) (p : V3 K) (hp : Cover (clip (sq K) q n t) p) :
    Hull t p := by
  have hcop : (sq K).cop t q n = tpS t q n := rfl
  have hedge : (sq K).edge q n = edgeS q n := rfl
  have single : Cover [t] p → Hull t p := by simp [Cover]
  unfold clip clipWith at hp
  rw [hcop, hedge] at hp
  by_cases hc : tpS t q n = true
  · rw [if_pos hc] at hp; exact single hp
  · rw [if_neg hc] at hp
    rcases h0 : isInside q n t.v0 with _ | _ <;> rcases h1 : isInside q n t.v1 with _ | _ <;>
      rcases h2 : isInside q n t.v2 with _ | _ <;> rw [h0, h1, h2] at hp <;>
      simp only [inside_iff, inside_iff'] at h0 h1 h2 <;> simp only at hp
    · simp [Cover] at hp
    · obtain ⟨a, b, c, ha, hb, hc', hs, e⟩ := twoOut_sub q n _ _ _ p h0 h1 h2 hp
      exact ⟨b, c, a, hb, hc', ha, by linarith, by rw [e]; simp only; abel⟩
    · exact hull_perm1.1 (twoOut_sub q n _ _ _ p h0 h2 h1 hp)
    · obtain ⟨a, b, c, ha, hb, hc', hs, e⟩ := oneOut_sub q n _ _ _ p h0 h1 h2 hp
      exact ⟨c, a, b, hc', ha, hb, by linarith, by rw [e]; simp only; abel⟩
    · exact twoOut_sub q n _ _ _ p h1 h2 h0 hp
    · exact hull_perm2.1 (oneOut_sub q n _ _ _ p h1 h0 h2 hp)
    · exact oneOut_sub q n _ _ _ p h2 h0 h1 hp
    · exact single hp

/-- **The pieces of `BoxIntersections` are part of the triangles.** -/
theorem boxIntersections_sub (c : V3 K) (l : List (Tri K)) (qs : List (Quad K)) (p : V3 K)
    (hp : Cover (boxIntersections (sq K) l qs c) p) : Cover l p := by
  induction qs generalizing l with
  | nil => exact hp
  | cons q qs ih =>
    obtain ⟨s, hs, hsp⟩ := ih (cut (sq K) c l q) hp
    simp only [cut, List.mem_flatMap] at hs
    obtain ⟨t, ht, hst⟩ := hs
    exact ⟨t, ht, clip_sub q _ t p ⟨s, hst, hsp⟩⟩

/-! ### How far a piece can reach out -/

theorem steep_mul (d n : V3 K) (k : K) (hk : k = 1 ∨ k = -1) : Steep (k • d) n ↔ Steep d n := by
  have h : normSq (k • d) = normSq d := by rw [normSq_smul]; rcases hk with rfl | rfl <;> ring
  have h2 : dot (k • d) n ^ 2 = dot d n ^ 2 := by
    rw [smul_dot]; rcases hk with rfl | rfl <;> ring
  unfold Steep IoU.m2
  rw [h, h2]

theorem dot_unit_lt {d n : V3 ℝ} (h : ¬ Steep d n) :
    |dot d (unit n)| < dEps * max (norm3 d) kEps := by
  rw [← steep_iff, not_le] at h
  have hm := max_pos d
  have h2 : dot (unit d) (unit n) = (max (norm3 d) kEps)⁻¹ * dot d (unit n) := by
    rw [unit, smul_dot]
  rw [h2, abs_mul, abs_of_pos (inv_pos.mpr hm), inv_mul_lt_iff₀ hm] at h
  linarith

theorem edge_near (q : Quad ℝ) (n u v : V3 ℝ) {M : ℝ} (hM : kEps ≤ M) (hn : norm3 (v - u) ≤ M)
    (hu : 0 ≤ height q (unit n) u) (hv : height q (unit n) v < 0) :
    -(dEps / 2 * M) ≤ height q (unit n) (planeEdge q (unit n) u v) := by
  have hM0 : 0 ≤ dEps / 2 * M := mul_nonneg (by norm_num [dEps]) (kEps_pos.le.trans hM)
  have key : ∀ a : ℝ, height q (unit n) ((1 - a) • u + a • v)
      = (1 - a) * height q (unit n) u + a * height q (unit n) v := by
    intro a
    have := height_comb q (unit n) u v v (a := 1 - a) (b := a) (c := 0) (by ring)
    simpa using this
  rw [planeEdge]
  by_cases h : dEps ≤ |dot (unit (v - u)) (unit n)|
  · rw [if_pos h, crossing_coef, key]
    have := coef_mul hu hv
    have e : (1 - coef (height q (unit n) u) (height q (unit n) v)) * height q (unit n) u
        + coef (height q (unit n) u) (height q (unit n) v) * height q (unit n) v = 0 := by
      linear_combination -this
    rw [e]; linarith
  · rw [if_neg h]
    have hs : ¬ Steep (v - u) n := fun h' => h ((steep_iff _ _).2 h')
    have h1 := dot_unit_lt hs
    rw [dot_eq_height q] at h1
    have h2 : max (norm3 (v - u)) kEps ≤ M := max_le hn hM
    have h3 : dEps * max (norm3 (v - u)) kEps ≤ dEps * M :=
      mul_le_mul_of_nonneg_left h2 (by norm_num [dEps])
    have h4 := (abs_lt.1 h1).1
    have e : middle u v = (1 - 1 / 2 : ℝ) • u + (1 / 2 : ℝ) • v := by
      simp only [middle]; ext <;> simp <;> ring
    rw [e, key]
    linarith

/-- **A triangle that is not taken for coplanar is cut off at the plane, up to `dEpsilon / 2` times the
length of its edges.** -/
theorem clip_near (q : Quad ℝ) (n : V3 ℝ) (t : Tri ℝ) (hc : coplanarTP t q (unit n) = false) {M : ℝ}
    (hM : kEps ≤ M) (hl : ∀ u ∈ t.verts, ∀ v ∈ t.verts, norm3 (v - u) ≤ M) :
    ∀ s ∈ clip ops q (unit n) t, ∀ p, Hull s p → -(dEps / 2 * M) ≤ height q (unit n) p := by
  have hM0 : 0 ≤ dEps / 2 * M := mul_nonneg (by norm_num [dEps]) (kEps_pos.le.trans hM)
  have m0 : t.v0 ∈ t.verts := by simp [Tri.verts]
  have m1 : t.v1 ∈ t.verts := by simp [Tri.verts]
  have m2 : t.v2 ∈ t.verts := by simp [Tri.verts]
  have low : ∀ s : Tri ℝ, -(dEps / 2 * M) ≤ height q (unit n) s.v0 →
      -(dEps / 2 * M) ≤ height q (unit n) s.v1 → -(dEps / 2 * M) ≤ height q (unit n) s.v2 →
      ∀ p, Hull s p → -(dEps / 2 * M) ≤ height q (unit n) p := by
    rintro s h0 h1 h2 p ⟨a, b, c, ha, hb, hc, hs, rfl⟩
    rw [height_comb _ _ _ _ _ hs]
    nlinarith [mul_le_mul_of_nonneg_left h0 ha, mul_le_mul_of_nonneg_left h1 hb,
      mul_le_mul_of_nonneg_left h2 hc]
  have pos : ∀ {x : ℝ}, 0 ≤ x → -(dEps / 2 * M) ≤ x := fun h => by linarith
  have near : ∀ u ∈ t.verts, ∀ v ∈ t.verts, 0 ≤ height q (unit n) u → height q (unit n) v < 0 →
      -(dEps / 2 * M) ≤ height q (unit n) (planeEdge q (unit n) u v) :=
    fun u hu v hv a b => edge_near q n u v hM (hl u hu v hv) a b
  have hcop : ops.cop t q (unit n) = coplanarTP t q (unit n) := rfl
  have hedge : ops.edge q (unit n) = planeEdge q (unit n) := rfl
  intro s hs
  unfold clip clipWith at hs
  rw [hcop, hedge, hc] at hs
  rcases h0 : isInside q (unit n) t.v0 with _ | _ <;> rcases h1 : isInside q (unit n) t.v1 with _ | _ <;>
    rcases h2 : isInside q (unit n) t.v2 with _ | _ <;> rw [h0, h1, h2] at hs <;>
    simp only [inside_iff, inside_iff'] at h0 h1 h2 <;>
    simp only [oneOut, twoOut, List.mem_cons, List.not_mem_nil, or_false, Bool.false_eq_true,
      if_false] at hs
  · exact hs ▸ low _ (pos h2) (near _ m2 _ m0 h2 h0) (near _ m2 _ m1 h2 h1)
  · exact hs ▸ low _ (pos h1) (near _ m1 _ m0 h1 h0) (near _ m1 _ m2 h1 h2)
  · rcases hs with rfl | rfl
    · exact low _ (pos h1) (near _ m1 _ m0 h1 h0) (near _ m2 _ m0 h2 h0)
    · exact low _ (pos h1) (near _ m2 _ m0 h2 h0) (pos h2)
  · exact hs ▸ low _ (pos h0) (near _ m0 _ m1 h0 h1) (near _ m0 _ m2 h0 h2)
  · rcases hs with rfl | rfl
    · exact low _ (pos h0) (near _ m0 _ m1 h0 h1) (near _ m2 _ m1 h2 h1)
    · exact low _ (pos h0) (near _ m2 _ m1 h2 h1) (pos h2)
  · rcases hs with rfl | rfl
    · exact low _ (pos h0) (near _ m0 _ m2 h0 h2) (near _ m1 _ m2 h1 h2)
    · exact low _ (pos h0) (near _ m1 _ m2 h1 h2) (pos h1)
  · exact hs ▸ low _ (pos h0) (pos h1) (pos h2)

/-! ### Volumes add up -/

/-- The sum of the volumes of the tetrahedra over the pieces is `BoxVolume`. -/
theorem tet_comb (c u v w : V3 K) (a1 b1 c1 a2 b2 c2 a3 b3 c3 : K) (h1 : a1 + b1 + c1 = 1)
    (h2 : a2 + b2 + c2 = 1) (h3 : a3 + b3 + c3 = 1) :
    tet c ⟨a1 • u + b1 • v + c1 • w, a2 • u + b2 • v + c2 • w, a3 • u + b3 • v + c3 • w⟩
      = |a1 * (b2 * c3 - c2 * b3) - b1 * (a2 * c3 - c2 * a3) + c1 * (a2 * b3 - b2 * a3)|
        * tet c ⟨u, v, w⟩ := by
  have hc1 : c1 = 1 - a1 - b1 := by linear_combination h1
  have hc2 : c2 = 1 - a2 - b2 := by linear_combination h2
  have hc3 : c3 = 1 - a3 - b3 := by linear_combination h3
  subst hc1 hc2 hc3
  unfold tet
  rw [← mul_div_assoc, ← abs_mul]
  congr 2
  simp only [dot, cross, add_x, add_y, add_z, sub_x, sub_y, sub_z, smul_x, smul_y, smul_z]
  ring

theorem tet_perm1 (c u v w : V3 K) : tet c ⟨u, v, w⟩ = tet c ⟨v, u, w⟩ := by
  unfold tet
  rw [← abs_neg]
  congr 2
  simp only [dot, cross, sub_x, sub_y, sub_z]; ring

theorem tet_perm2 (c u v w : V3 K) : tet c ⟨u, v, w⟩ = tet c ⟨u, w, v⟩ := by
  unfold tet
  rw [← abs_neg]
  congr 2
  simp only [dot, cross, sub_x, sub_y, sub_z]; ring

theorem oneOut_tet (q : Quad K) (n o i j c : V3 K) (ho : height q n o < 0)
    (hi : 0 ≤ height q n i) (hj : 0 ≤ height q n j) (si : Steep (o - i) n) (sj : Steep (o - j) n) :
    boxVolume (oneOut (edgeS q n) o i j) c
      = (1 - (1 - coef (height q n i) (height q n o)) * (1 - coef (height q n j) (height q n o)))
        * tet c ⟨i, j, o⟩ := by
  have ha := coef_mem hi ho
  have hb := coef_mem hj ho
  simp only [boxVolume, oneOut, List.map_cons, List.map_nil, List.sum_cons, List.sum_nil, add_zero,
    edgeS_steep q n i o si, edgeS_steep q n j o sj]
  set α := coef (height q n i) (height q n o)
  set β := coef (height q n j) (height q n o)
  have e1 := tet_comb c i j o 1 0 0 (1 - α) 0 α 0 (1 - β) β (by ring) (by ring) (by ring)
  have e2 := tet_comb c i j o 1 0 0 0 (1 - β) β 0 1 0 (by ring) (by ring) (by ring)
  simp only [one_smul, zero_smul, add_zero, zero_add] at e1 e2
  rw [e1, e2]
  have x1 : |1 * (0 * β - α * (1 - β)) - 0 * ((1 - α) * β - α * 0) + 0 * ((1 - α) * (1 - β) - 0 * 0)|
      = α * (1 - β) := by
    rw [← abs_neg, show -(1 * (0 * β - α * (1 - β)) - 0 * ((1 - α) * β - α * 0)
      + 0 * ((1 - α) * (1 - β) - 0 * 0)) = α * (1 - β) by ring,
      abs_of_nonneg (mul_nonneg ha.1 (by linarith))]
  have x2 : |1 * ((1 - β) * 0 - β * 1) - 0 * (0 * 0 - β * 0) + 0 * (0 * 1 - (1 - β) * 0)| = β := by
    rw [← abs_neg, show -(1 * ((1 - β) * 0 - β * 1) - 0 * (0 * 0 - β * 0)
      + 0 * (0 * 1 - (1 - β) * 0)) = β by ring, abs_of_nonneg hb.1]
  rw [x1, x2]; ring

theorem twoOut_tet (q : Quad K) (n o1 o2 i c : V3 K) (h1 : height q n o1 < 0)
    (h2 : height q n o2 < 0) (hi : 0 ≤ height q n i) (s1 : Steep (o1 - i) n) (s2 : Steep (o2 - i) n) :
    boxVolume (twoOut (edgeS q n) o1 o2 i) c
      = coef (height q n i) (height q n o1) * coef (height q n i) (height q n o2)
        * tet c ⟨i, o1, o2⟩ := by
  have ha := coef_mem hi h1
  have hb := coef_mem hi h2
  simp only [boxVolume, twoOut, List.map_cons, List.map_nil, List.sum_cons, List.sum_nil, add_zero,
    edgeS_steep q n i o1 s1, edgeS_steep q n i o2 s2]
  set α := coef (height q n i) (height q n o1)
  set β := coef (height q n i) (height q n o2)
  have e1 := tet_comb c i o1 o2 1 0 0 (1 - α) α 0 (1 - β) 0 β (by ring) (by ring) (by ring)
  simp only [one_smul, zero_smul, add_zero] at e1
  rw [e1]
  have x1 : |1 * (α * β - 0 * 0) - 0 * ((1 - α) * β - 0 * (1 - β)) + 0 * ((1 - α) * 0 - α * (1 - β))|
      = α * β := by
    rw [show 1 * (α * β - 0 * 0) - 0 * ((1 - α) * β - 0 * (1 - β))
      + 0 * ((1 - α) * 0 - α * (1 - β)) = α * β by ring, abs_of_nonneg (mul_nonneg ha.1 hb.1)]
  rw [x1]

/-- The share of a triangle above the plane, from the heights of its vertices. -/
def share (h0 h1 h2 : K) : K :=
  match decide (0 ≤ h0), decide (0 ≤ h1), decide (0 ≤ h2) with
  | true, true, true => 1
  | false, false, false => 0
  | true, true, false => 1 - (1 - coef h0 h2) * (1 - coef h1 h2)
  | true, false, true => 1 - (1 - coef h0 h1) * (1 - coef h2 h1)
  | false, true, true => 1 - (1 - coef h1 h0) * (1 - coef h2 h0)
  | true, false, false => coef h0 h1 * coef h0 h2
  | false, false, true => coef h2 h0 * coef h2 h1
  | false, true, false => coef h1 h0 * coef h1 h2

/-- The pieces of a triangle have together the volume of its share. -/
theorem clip_tet (q : Quad K) (n : V3 K) (t : Tri K) (hs : Sharp q n t) (c : V3 K) :
    boxVolume (clip (sq K) q n t) c
      = share (height q n t.v0) (height q n t.v1) (height q n t.v2) * tet c t := by
  obtain ⟨hf, hst⟩ := hs
  have m0 : t.v0 ∈ t.verts := by simp [Tri.verts]
  have m1 : t.v1 ∈ t.verts := by simp [Tri.verts]
  have m2 : t.v2 ∈ t.verts := by simp [Tri.verts]
  have single : boxVolume [t] c = 1 * tet c t := by simp [boxVolume]
  have hcop : (sq K).cop t q n = tpS t q n := rfl
  have hedge : (sq K).edge q n = edgeS q n := rfl
  have hin : ∀ p, decide (0 ≤ height q n p) = isInside q n p := fun _ => rfl
  unfold clip clipWith share
  rw [hcop, hedge, hin, hin, hin]
  by_cases hc : tpS t q n = true
  · rw [if_pos hc, (inside_iff q n _).2 (hf hc _ m0), (inside_iff q n _).2 (hf hc _ m1),
      (inside_iff q n _).2 (hf hc _ m2)]
    exact single
  · rw [if_neg hc]
    rcases h0 : isInside q n t.v0 with _ | _ <;> rcases h1 : isInside q n t.v1 with _ | _ <;>
      rcases h2 : isInside q n t.v2 with _ | _ <;>
      simp only [inside_iff, inside_iff'] at h0 h1 h2 <;> simp only
    · simp [boxVolume]
    · rw [twoOut_tet q n _ _ _ c h0 h1 h2 (hst _ m2 _ m0 h2 h0) (hst _ m2 _ m1 h2 h1),
        tet_perm1, tet_perm2]
    · rw [twoOut_tet q n _ _ _ c h0 h2 h1 (hst _ m1 _ m0 h1 h0) (hst _ m1 _ m2 h1 h2), tet_perm1]
    · rw [oneOut_tet q n _ _ _ c h0 h1 h2 (hst _ m1 _ m0 h1 h0) (hst _ m2 _ m0 h2 h0),
        tet_perm2, tet_perm1]
    · rw [twoOut_tet q n _ _ _ c h1 h2 h0 (hst _ m0 _ m1 h0 h1) (hst _ m0 _ m2 h0 h2)]
    · rw [oneOut_tet q n _ _ _ c h1 h0 h2 (hst _ m0 _ m1 h0 h1) (hst _ m2 _ m1 h2 h1), tet_perm2]
    · rw [oneOut_tet q n _ _ _ c h2 h0 h1 (hst _ m0 _ m2 h0 h2) (hst _ m1 _ m2 h1 h2)]
    · exact single

theorem coef_neg (a b : K) : coef (-a) (-b) = coef a b := by
  unfold coef
  rw [show -a - -b = -(a - b) by ring, neg_div_neg_eq]

theorem one_sub_coef {a b : K} (h : a - b ≠ 0) : 1 - coef a b = coef b a := by
  unfold coef
  have h' : b - a ≠ 0 := fun e => h (by linear_combination -e)
  field_simp
  ring

theorem share_add {h0 h1 h2 : K} (hz : ¬ (h0 = 0 ∧ h1 = 0 ∧ h2 = 0)) :
    share h0 h1 h2 + share (-h0) (-h1) (-h2) = 1 := by
  have z : ∀ b : K, coef 0 b = 0 := fun b => by simp [coef]
  have s01 : h0 ≠ h1 → coef h0 h1 + coef h1 h0 = 1 := fun h => by
    rw [← one_sub_coef (sub_ne_zero.2 h)]; ring
  have s02 : h0 ≠ h2 → coef h0 h2 + coef h2 h0 = 1 := fun h => by
    rw [← one_sub_coef (sub_ne_zero.2 h)]; ring
  have s12 : h1 ≠ h2 → coef h1 h2 + coef h2 h1 = 1 := fun h => by
    rw [← one_sub_coef (sub_ne_zero.2 h)]; ring
  unfold share
  rcases lt_trichotomy h0 0 with a0 | a0 | a0 <;> rcases lt_trichotomy h1 0 with a1 | a1 | a1 <;>
    rcases lt_trichotomy h2 0 with a2 | a2 | a2 <;>
    first
      | (exfalso; exact hz ⟨a0, a1, a2⟩)
      | (simp only [a0, a1, a2, not_le.2, neg_zero, le_refl, decide_true, decide_false, Left.nonneg_neg_iff,
          le_of_lt, coef_neg, z]
         try grind)

theorem height_neg (q : Quad K) (n p : V3 K) : height q ((-1 : K) • n) p = -height q n p := by
  simp only [height, dot_smul]; ring

/-- **Cutting a triangle at a plane loses nothing and counts nothing twice**: the volumes over the pieces
on the two sides add up to the volume over the triangle, for every apex. -/
theorem clip_split (q : Quad K) (n : V3 K) (t : Tri K) (hs : Sharp q n t)
    (hs' : Sharp q ((-1 : K) • n) t) (hz : ∃ v ∈ t.verts, height q n v ≠ 0) (c : V3 K) :
    boxVolume (clip (sq K) q n t) c + boxVolume (clip (sq K) q ((-1 : K) • n) t) c = tet c t := by
  rw [clip_tet q n t hs, clip_tet q _ t hs', height_neg, height_neg, height_neg, ← add_mul,
    share_add, one_mul]
  rintro ⟨h0, h1, h2⟩
  obtain ⟨v, hv, hne⟩ := hz
  simp only [Tri.verts, List.mem_cons, List.not_mem_nil, or_false] at hv
  rcases hv with rfl | rfl | rfl
  · exact hne h0
  · exact hne h1
  · exact hne h2

theorem tet_nonneg (c : V3 K) (t : Tri K) : 0 ≤ tet c t := div_nonneg (abs_nonneg _) (by norm_num)

theorem boxVolume_nonneg (l : List (Tri K)) (c : V3 K) : 0 ≤ boxVolume l c :=
  List.sum_nonneg fun x hx => by
    obtain ⟨t, _, rfl⟩ := List.mem_map.1 hx; exact tet_nonneg c t

/-- A plane `z = 0` and a triangle across it. -/
example : Sharp (K := ℚ) ⟨⟨0, 0, 0⟩, ⟨1, 0, 0⟩, ⟨1, 1, 0⟩, ⟨0, 1, 0⟩⟩ ⟨0, 0, 1⟩
    ⟨⟨0, 0, 1⟩, ⟨1, 0, 2⟩, ⟨0, 1, -1⟩⟩ := by decide +kernel

example : clip (sq ℚ) ⟨⟨0, 0, 0⟩, ⟨1, 0, 0⟩, ⟨1, 1, 0⟩, ⟨0, 1, 0⟩⟩ ⟨0, 0, 1⟩
    ⟨⟨0, 0, 1⟩, ⟨1, 0, 2⟩, ⟨0, 1, -1⟩⟩
    = [⟨⟨0, 0, 1⟩, ⟨0, 1/2, 0⟩, ⟨1/3, 2/3, 0⟩⟩, ⟨⟨0, 0, 1⟩, ⟨1/3, 2/3, 0⟩, ⟨1, 0, 2⟩⟩] := by
  decide +kernel

/-- Two boxes that overlap in general position. -/
example : SharpAll (K := ℚ) (boxCenter (aabb ⟨1, 1, 1⟩ ⟨3, 3, 3⟩)) (boxTris (aabb ⟨0, 0, 0⟩ ⟨2, 2, 2⟩))
    (boxPlanes (aabb ⟨1, 1, 1⟩ ⟨3, 3, 3⟩)) := by decide +kernel

end P3D.IoU
