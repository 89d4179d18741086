/-
`box3d_overlap` for parallelepipeds: what is inside, volumes, equal, nested and disjoint boxes; the checks
of `box3d_overlap` (`ops/iou_box3d.py:50-169`) and the normals of the CUDA code
(`csrc/iou_box3d/iou_utils.cuh:135-189`).
-/
import Verif.IoUClip
import Mathlib.Algebra.Order.Floor.Ring
import Mathlib.Tactic.FinCases

set_option linter.unusedSectionVars false

namespace P3D.IoU

open V3

variable {K : Type} [Field K] [LinearOrder K] [IsStrictOrderedRing K]

/-! ### Specification -/

/-- The corners of the parallelepiped at `o` with edges `e1`, `e2`, `e3`, in the order of the diagram in
`iou_box3d.py:124-149`. -/
def ppd (o e1 e2 e3 : V3 K) : Box K :=
  ![o, o + e1, o + e1 + e2, o + e2, o + e3, o + e1 + e3, o + e1 + e2 + e3, o + e2 + e3]

/-- A point of space in the coordinates of a box. -/
def at3 (o e1 e2 e3 : V3 K) (x y z : K) : V3 K := o + x • e1 + y • e2 + z • e3

/-- The solid box. -/
def Solid (o e1 e2 e3 p : V3 K) : Prop :=
  ∃ x y z : K, (0 ≤ x ∧ x ≤ 1) ∧ (0 ≤ y ∧ y ≤ 1) ∧ (0 ≤ z ∧ z ≤ 1) ∧ p = at3 o e1 e2 e3 x y z

/-- The inner points of the box. -/
def Inner (o e1 e2 e3 p : V3 K) : Prop :=
  ∃ x y z : K, (0 < x ∧ x < 1) ∧ (0 < y ∧ y < 1) ∧ (0 < z ∧ z < 1) ∧ p = at3 o e1 e2 e3 x y z

/-- The surface of the box. -/
def Surface (o e1 e2 e3 p : V3 K) : Prop :=
  ∃ x y z : K, (0 ≤ x ∧ x ≤ 1) ∧ (0 ≤ y ∧ y ≤ 1) ∧ (0 ≤ z ∧ z ≤ 1) ∧
    (x = 0 ∨ x = 1 ∨ y = 0 ∨ y = 1 ∨ z = 0 ∨ z = 1) ∧ p = at3 o e1 e2 e3 x y z

/-- The determinant of the edges. -/
def det3 (e1 e2 e3 : V3 K) : K := dot e1 (cross e2 e3)

/-! ### Inside and surface -/

theorem boxCenter_ppd (o e1 e2 e3 : V3 K) :
    boxCenter (ppd o e1 e2 e3) = at3 o e1 e2 e3 (1/2) (1/2) (1/2) := by
  ext <;> simp [boxCenter, ppd, at3] <;> ring

theorem boxPlanes_ppd (o e1 e2 e3 : V3 K) : boxPlanes (ppd o e1 e2 e3) =
    [⟨o, o + e1, o + e1 + e2, o + e2⟩, ⟨o + e2, o + e1 + e2, o + e1 + e2 + e3, o + e2 + e3⟩,
      ⟨o, o + e1, o + e1 + e3, o + e3⟩, ⟨o, o + e2, o + e2 + e3, o + e3⟩,
      ⟨o + e1, o + e1 + e3, o + e1 + e2 + e3, o + e1 + e2⟩,
      ⟨o + e3, o + e1 + e3, o + e1 + e2 + e3, o + e2 + e3⟩] := rfl

theorem boxTris_ppd (o e1 e2 e3 : V3 K) : boxTris (ppd o e1 e2 e3) =
    [⟨o, o + e1, o + e1 + e2⟩, ⟨o, o + e2, o + e1 + e2⟩,
      ⟨o + e3, o + e1 + e3, o + e1 + e2 + e3⟩, ⟨o + e3, o + e1 + e2 + e3, o + e2 + e3⟩,
      ⟨o + e1, o + e1 + e3, o + e1 + e2 + e3⟩, ⟨o + e1, o + e1 + e2 + e3, o + e1 + e2⟩,
      ⟨o, o + e3, o + e2 + e3⟩, ⟨o, o + e2 + e3, o + e2⟩,
      ⟨o + e2, o + e1 + e2, o + e1 + e2 + e3⟩, ⟨o + e2, o + e1 + e2 + e3, o + e2 + e3⟩,
      ⟨o, o + e1, o + e1 + e3⟩, ⟨o, o + e3, o + e1 + e3⟩] := rfl

/-- The height over the plane of a parallelogram `a, a + u, a + u + v, a + v`, seen from a centre at
`a + (u + v + w) / 2`. -/
theorem height_para (a u v w : V3 K) (x y z : K) :
    height ⟨a, a + u, a + u + v, a + v⟩
        (dirS ⟨a, a + u, a + u + v, a + v⟩ (a + (1/2 : K) • u + (1/2 : K) • v + (1/2 : K) • w))
        (a + x • u + y • v + z • w) = z * (|det3 u v w| / 2) := by
  have hc : planeCross ⟨a, a + u, a + u + v, a + v⟩ = (1/2 : K) • cross u v := by
    ext <;> simp [planeCross, planeCenter, cross] <;> ring
  have hd : dot (a + (1/2 : K) • u + (1/2 : K) • v + (1/2 : K) • w
      - planeCenter ⟨a, a + u, a + u + v, a + v⟩) ((1/2 : K) • cross u v) = det3 u v w / 4 := by
    simp [dot, planeCenter, cross, det3]; ring
  have hh : height ⟨a, a + u, a + u + v, a + v⟩ ((1/2 : K) • cross u v) (a + x • u + y • v + z • w)
      = z * (det3 u v w / 2) := by
    simp [height, dot, planeCenter, cross, det3]; ring
  unfold dirS
  rw [hc, hd]
  by_cases h : det3 u v w < 0
  · rw [if_pos (by linarith), height_neg, hh, abs_of_neg h]; ring
  · rw [if_neg (by linarith), hh, abs_of_nonneg (not_lt.1 h)]

theorem height_plane (q : Quad K) (c p a u v w : V3 K) (x y z : K) (h0 : q.v0 = a) (h1 : q.v1 = a + u)
    (h2 : q.v2 = a + u + v) (h3 : q.v3 = a + v)
    (hc : c = a + (1/2 : K) • u + (1/2 : K) • v + (1/2 : K) • w) (hp : p = a + x • u + y • v + z • w) :
    height q (dirS q c) p = z * (|det3 u v w| / 2) := by
  obtain ⟨q0, q1, q2, q3⟩ := q
  simp only at h0 h1 h2 h3
  subst h0 h1 h2 h3 hc hp
  exact height_para _ u v w x y z

theorem det3_rot (u v w : V3 K) : det3 v w u = det3 u v w := by simp [det3, dot, cross]; ring
theorem det3_swap (u v w : V3 K) : det3 v u w = -det3 u v w := by simp [det3, dot, cross]; ring
theorem det3_neg (u v w : V3 K) : det3 u v ((-1 : K) • w) = -det3 u v w := by
  simp [det3, dot, cross]; ring

/-- The heights over the six planes are the six coordinates of the point in the box. -/
theorem heights_ppd (o e1 e2 e3 : V3 K) (x y z : K) :
    (boxPlanes (ppd o e1 e2 e3)).map
        (fun q => height q (dirS q (boxCenter (ppd o e1 e2 e3))) (at3 o e1 e2 e3 x y z))
      = [z, 1 - y, y, x, 1 - x, 1 - z].map (fun k => k * (|det3 e1 e2 e3| / 2)) := by
  have a13 : |det3 e1 e3 e2| = |det3 e1 e2 e3| := by
    rw [← det3_rot, det3_swap, det3_rot, abs_neg]
  have a23 : |det3 e2 e3 e1| = |det3 e1 e2 e3| := by rw [det3_rot]
  have n12 : |det3 e1 e2 ((-1 : K) • e3)| = |det3 e1 e2 e3| := by rw [det3_neg, abs_neg]
  have n13 : |det3 e1 e3 ((-1 : K) • e2)| = |det3 e1 e2 e3| := by rw [det3_neg, abs_neg, a13]
  have n32 : |det3 e3 e2 ((-1 : K) • e1)| = |det3 e1 e2 e3| := by
    rw [det3_neg, abs_neg, det3_swap, abs_neg, a23]
  rw [boxPlanes_ppd, boxCenter_ppd]
  simp only [List.map_cons, List.map_nil]
  refine List.cons_eq_cons.2 ⟨?_, List.cons_eq_cons.2 ⟨?_, List.cons_eq_cons.2 ⟨?_,
    List.cons_eq_cons.2 ⟨?_, List.cons_eq_cons.2 ⟨?_, List.cons_eq_cons.2 ⟨?_, rfl⟩⟩⟩⟩⟩⟩
  · exact height_plane _ _ _ o e1 e2 e3 x y z rfl rfl rfl rfl rfl rfl
  · rw [← n13]
    refine height_plane _ _ _ (o + e2) e1 e3 ((-1 : K) • e2) x z (1 - y) ?_ ?_ ?_ ?_ ?_ ?_ <;>
      ext <;> simp [at3] <;> ring
  · rw [← a13]
    refine height_plane _ _ _ o e1 e3 e2 x z y ?_ ?_ ?_ ?_ ?_ ?_ <;>
      ext <;> simp [at3] <;> ring
  · rw [← a23]
    refine height_plane _ _ _ o e2 e3 e1 y z x ?_ ?_ ?_ ?_ ?_ ?_ <;>
      ext <;> simp [at3] <;> ring
  · rw [← n32]
    refine height_plane _ _ _ (o + e1) e3 e2 ((-1 : K) • e1) z y (1 - x) ?_ ?_ ?_ ?_ ?_ ?_ <;>
      ext <;> simp [at3] <;> ring
  · rw [← n12]
    refine height_plane _ _ _ (o + e3) e1 e2 ((-1 : K) • e3) x y (1 - z) ?_ ?_ ?_ ?_ ?_ ?_ <;>
      ext <;> simp [at3] <;> ring

/-- Every point has coordinates in a box that is not flat. -/
theorem coords (o e1 e2 e3 p : V3 K) (hd : det3 e1 e2 e3 ≠ 0) :
    ∃ x y z : K, p = at3 o e1 e2 e3 x y z := by
  refine ⟨det3 (p - o) e2 e3 / det3 e1 e2 e3, det3 e1 (p - o) e3 / det3 e1 e2 e3,
    det3 e1 e2 (p - o) / det3 e1 e2 e3, ?_⟩
  ext
  all_goals
    simp only [at3, add_x, add_y, add_z, smul_x, smul_y, smul_z]
    field_simp
    simp only [det3, dot, cross, sub_x, sub_y, sub_z]
    ring

theorem coords_inj {o e1 e2 e3 : V3 K} (hd : det3 e1 e2 e3 ≠ 0) {x y z x' y' z' : K}
    (h : at3 o e1 e2 e3 x y z = at3 o e1 e2 e3 x' y' z') : x = x' ∧ y = y' ∧ z = z' := by
  have h1 := congrArg V3.x h
  have h2 := congrArg V3.y h
  have h3 := congrArg V3.z h
  simp only [at3, add_x, add_y, add_z, smul_x, smul_y, smul_z] at h1 h2 h3
  have k : ∀ a : K, a * det3 e1 e2 e3 = 0 → a = 0 := fun a ha => (mul_eq_zero.1 ha).resolve_right hd
  refine ⟨sub_eq_zero.1 (k _ ?_), sub_eq_zero.1 (k _ ?_), sub_eq_zero.1 (k _ ?_)⟩
  · simp only [det3, dot, cross]
    linear_combination (e2.y * e3.z - e2.z * e3.y) * h1 + (e2.z * e3.x - e2.x * e3.z) * h2
      + (e2.x * e3.y - e2.y * e3.x) * h3
  · simp only [det3, dot, cross]
    linear_combination (e3.y * e1.z - e3.z * e1.y) * h1 + (e3.z * e1.x - e3.x * e1.z) * h2
      + (e3.x * e1.y - e3.y * e1.x) * h3
  · simp only [det3, dot, cross]
    linear_combination (e1.y * e2.z - e1.z * e2.y) * h1 + (e1.z * e2.x - e1.x * e2.z) * h2
      + (e1.x * e2.y - e1.y * e2.x) * h3

theorem forall_height (o e1 e2 e3 : V3 K) (x y z : K) (P : K → Prop) :
    (∀ q ∈ boxPlanes (ppd o e1 e2 e3),
        P (height q (dirS q (boxCenter (ppd o e1 e2 e3))) (at3 o e1 e2 e3 x y z)))
      ↔ ∀ k ∈ [z, 1 - y, y, x, 1 - x, 1 - z], P (k * (|det3 e1 e2 e3| / 2)) := by
  have h := heights_ppd o e1 e2 e3 x y z
  constructor
  · intro hq k hk
    have : k * (|det3 e1 e2 e3| / 2) ∈ (boxPlanes (ppd o e1 e2 e3)).map
        (fun q => height q (dirS q (boxCenter (ppd o e1 e2 e3))) (at3 o e1 e2 e3 x y z)) := by
      rw [h]; exact List.mem_map_of_mem hk
    obtain ⟨q, hq', e⟩ := List.mem_map.1 this
    rw [← e]; exact hq q hq'
  · intro hk q hq
    have : height q (dirS q (boxCenter (ppd o e1 e2 e3))) (at3 o e1 e2 e3 x y z)
        ∈ [z, 1 - y, y, x, 1 - x, 1 - z].map (fun k => k * (|det3 e1 e2 e3| / 2)) := by
      rw [← h]
      exact List.mem_map_of_mem (f := fun q => height q (dirS q (boxCenter (ppd o e1 e2 e3)))
        (at3 o e1 e2 e3 x y z)) hq
    obtain ⟨k, hk', e⟩ := List.mem_map.1 this
    rw [← e]; exact hk k hk'

/-- **Inside all six planes means inside the box.** -/
theorem inside_ppd (o e1 e2 e3 p : V3 K) (hd : det3 e1 e2 e3 ≠ 0) :
    (∀ q ∈ boxPlanes (ppd o e1 e2 e3), 0 ≤ height q (dirS q (boxCenter (ppd o e1 e2 e3))) p)
      ↔ Solid o e1 e2 e3 p := by
  have hp : 0 < |det3 e1 e2 e3| / 2 := by have := abs_pos.2 hd; linarith
  have key : ∀ k : K, 0 ≤ k * (|det3 e1 e2 e3| / 2) ↔ 0 ≤ k := fun k =>
    ⟨fun h => by by_contra h'; push Not at h'; exact absurd h (not_le.2 (mul_neg_of_neg_of_pos h' hp)),
      fun h => mul_nonneg h hp.le⟩
  obtain ⟨x, y, z, rfl⟩ := coords o e1 e2 e3 p hd
  rw [forall_height o e1 e2 e3 x y z (fun k => 0 ≤ k)]
  simp only [key, List.mem_cons, List.not_mem_nil, or_false, forall_eq_or_imp, forall_eq]
  constructor
  · rintro ⟨h1, h2, h3, h4, h5, h6⟩
    exact ⟨x, y, z, ⟨h4, by linarith⟩, ⟨h3, by linarith⟩, ⟨h1, by linarith⟩, rfl⟩
  · rintro ⟨x', y', z', ⟨a, b⟩, ⟨c, d⟩, ⟨e, f⟩, h⟩
    obtain ⟨rfl, rfl, rfl⟩ := coords_inj hd h
    exact ⟨e, by linarith, c, a, by linarith, by linarith⟩

/-- Strictly inside all six planes means an inner point of the box. -/
theorem inner_ppd (o e1 e2 e3 p : V3 K) (hd : det3 e1 e2 e3 ≠ 0) :
    (∀ q ∈ boxPlanes (ppd o e1 e2 e3), 0 < height q (dirS q (boxCenter (ppd o e1 e2 e3))) p)
      ↔ Inner o e1 e2 e3 p := by
  have hp : 0 < |det3 e1 e2 e3| / 2 := by have := abs_pos.2 hd; linarith
  have key : ∀ k : K, 0 < k * (|det3 e1 e2 e3| / 2) ↔ 0 < k := fun k => mul_pos_iff_of_pos_right hp
  obtain ⟨x, y, z, rfl⟩ := coords o e1 e2 e3 p hd
  rw [forall_height o e1 e2 e3 x y z (fun k => 0 < k)]
  simp only [key, List.mem_cons, List.not_mem_nil, or_false, forall_eq_or_imp, forall_eq]
  constructor
  · rintro ⟨h1, h2, h3, h4, h5, h6⟩
    exact ⟨x, y, z, ⟨h4, by linarith⟩, ⟨h3, by linarith⟩, ⟨h1, by linarith⟩, rfl⟩
  · rintro ⟨x', y', z', ⟨a, b⟩, ⟨c, d⟩, ⟨e, f⟩, h⟩
    obtain ⟨rfl, rfl, rfl⟩ := coords_inj hd h
    exact ⟨e, by linarith, c, a, by linarith, by linarith⟩

theorem hull_at3 {o e1 e2 e3 p : V3 K} {x0 y0 z0 x1 y1 z1 x2 y2 z2 : K} {t : Tri K}
    (h0 : t.v0 = at3 o e1 e2 e3 x0 y0 z0) (h1 : t.v1 = at3 o e1 e2 e3 x1 y1 z1)
    (h2 : t.v2 = at3 o e1 e2 e3 x2 y2 z2) :
    Hull t p ↔ ∃ a b c : K, 0 ≤ a ∧ 0 ≤ b ∧ 0 ≤ c ∧ a + b + c = 1 ∧
      p = at3 o e1 e2 e3 (a * x0 + b * x1 + c * x2) (a * y0 + b * y1 + c * y2)
        (a * z0 + b * z1 + c * z2) := by
  have key : ∀ a b c : K, a + b + c = 1 → a • t.v0 + b • t.v1 + c • t.v2
      = at3 o e1 e2 e3 (a * x0 + b * x1 + c * x2) (a * y0 + b * y1 + c * y2)
        (a * z0 + b * z1 + c * z2) := by
    intro a b c hs
    rw [h0, h1, h2]
    ext <;> simp only [at3, add_x, add_y, add_z, smul_x, smul_y, smul_z]
    · linear_combination o.x * hs
    · linear_combination o.y * hs
    · linear_combination o.z * hs
  constructor
  · rintro ⟨a, b, c, ha, hb, hc, hs, rfl⟩
    exact ⟨a, b, c, ha, hb, hc, hs, key a b c hs⟩
  · rintro ⟨a, b, c, ha, hb, hc, hs, rfl⟩
    exact ⟨a, b, c, ha, hb, hc, hs, (key a b c hs).symm⟩

theorem surf_of {o e1 e2 e3 p : V3 K} {x0 y0 z0 x1 y1 z1 x2 y2 z2 : K}
    (h : ∃ a b c : K, 0 ≤ a ∧ 0 ≤ b ∧ 0 ≤ c ∧ a + b + c = 1 ∧
      p = at3 o e1 e2 e3 (a * x0 + b * x1 + c * x2) (a * y0 + b * y1 + c * y2)
        (a * z0 + b * z1 + c * z2))
    (hx : (0 ≤ x0 ∧ x0 ≤ 1) ∧ (0 ≤ x1 ∧ x1 ≤ 1) ∧ (0 ≤ x2 ∧ x2 ≤ 1) := by norm_num)
    (hy : (0 ≤ y0 ∧ y0 ≤ 1) ∧ (0 ≤ y1 ∧ y1 ≤ 1) ∧ (0 ≤ y2 ∧ y2 ≤ 1) := by norm_num)
    (hz : (0 ≤ z0 ∧ z0 ≤ 1) ∧ (0 ≤ z1 ∧ z1 ≤ 1) ∧ (0 ≤ z2 ∧ z2 ≤ 1) := by norm_num)
    (hf : (x0 = 0 ∧ x1 = 0 ∧ x2 = 0) ∨ (x0 = 1 ∧ x1 = 1 ∧ x2 = 1) ∨ (y0 = 0 ∧ y1 = 0 ∧ y2 = 0)
      ∨ (y0 = 1 ∧ y1 = 1 ∧ y2 = 1) ∨ (z0 = 0 ∧ z1 = 0 ∧ z2 = 0) ∨ (z0 = 1 ∧ z1 = 1 ∧ z2 = 1)
        := by norm_num) : Surface o e1 e2 e3 p := by
  obtain ⟨a, b, c, ha, hb, hc, hs, rfl⟩ := h
  have key : ∀ {u v w : K}, (0 ≤ u ∧ u ≤ 1) ∧ (0 ≤ v ∧ v ≤ 1) ∧ (0 ≤ w ∧ w ≤ 1) →
      0 ≤ a * u + b * v + c * w ∧ a * u + b * v + c * w ≤ 1 := by
    rintro u v w ⟨⟨u0, u1⟩, ⟨v0, v1⟩, ⟨w0, w1⟩⟩
    refine ⟨add_nonneg (add_nonneg (mul_nonneg ha u0) (mul_nonneg hb v0)) (mul_nonneg hc w0), ?_⟩
    have := mul_le_mul_of_nonneg_left u1 ha
    have := mul_le_mul_of_nonneg_left v1 hb
    have := mul_le_mul_of_nonneg_left w1 hc
    linarith
  refine ⟨_, _, _, key hx, key hy, key hz, ?_, rfl⟩
  rcases hf with ⟨r, r', r''⟩ | ⟨r, r', r''⟩ | ⟨r, r', r''⟩ | ⟨r, r', r''⟩ | ⟨r, r', r''⟩ | ⟨r, r', r''⟩ <;>
    rw [r, r', r'']
  · left; ring
  · right; left; linarith
  · right; right; left; ring
  · right; right; right; left; linarith
  · right; right; right; right; left; ring
  · right; right; right; right; right; linarith

theorem mem_nth {α : Type} {l : List α} {a : α} (n : Nat) (h : l[n]? = some a) : a ∈ l :=
  List.mem_of_getElem? h

/-- The corners in the coordinates of the box. -/
theorem corner (o e1 e2 e3 : V3 K) :
    o = at3 o e1 e2 e3 0 0 0 ∧ o + e1 = at3 o e1 e2 e3 1 0 0 ∧ o + e1 + e2 = at3 o e1 e2 e3 1 1 0 ∧
    o + e2 = at3 o e1 e2 e3 0 1 0 ∧ o + e3 = at3 o e1 e2 e3 0 0 1 ∧
    o + e1 + e3 = at3 o e1 e2 e3 1 0 1 ∧ o + e1 + e2 + e3 = at3 o e1 e2 e3 1 1 1 ∧
    o + e2 + e3 = at3 o e1 e2 e3 0 1 1 := by
  refine ⟨?_, ?_, ?_, ?_, ?_, ?_, ?_, ?_⟩ <;> ext <;> simp [at3]

/-- **The twelve triangles are the surface of the box.** -/
theorem surface_ppd (o e1 e2 e3 p : V3 K) :
    Cover (boxTris (ppd o e1 e2 e3)) p ↔ Surface o e1 e2 e3 p := by
  obtain ⟨c0, c1, c2, c3, c4, c5, c6, c7⟩ := corner o e1 e2 e3
  rw [boxTris_ppd]
  constructor
  · rintro ⟨t, ht, hp⟩
    simp only [List.mem_cons, List.not_mem_nil, or_false] at ht
    rcases ht with rfl | rfl | rfl | rfl | rfl | rfl | rfl | rfl | rfl | rfl | rfl | rfl
    · exact surf_of ((hull_at3 c0 c1 c2).1 hp)
    · exact surf_of ((hull_at3 c0 c3 c2).1 hp)
    · exact surf_of ((hull_at3 c4 c5 c6).1 hp)
    · exact surf_of ((hull_at3 c4 c6 c7).1 hp)
    · exact surf_of ((hull_at3 c1 c5 c6).1 hp)
    · exact surf_of ((hull_at3 c1 c6 c2).1 hp)
    · exact surf_of ((hull_at3 c0 c4 c7).1 hp)
    · exact surf_of ((hull_at3 c0 c7 c3).1 hp)
    · exact surf_of ((hull_at3 c3 c2 c6).1 hp)
    · exact surf_of ((hull_at3 c3 c6 c7).1 hp)
    · exact surf_of ((hull_at3 c0 c1 c5).1 hp)
    · exact surf_of ((hull_at3 c0 c4 c5).1 hp)
  · rintro ⟨x, y, z, ⟨x0, x1⟩, ⟨y0, y1⟩, ⟨z0, z1⟩, h, rfl⟩
    rcases h with rfl | rfl | rfl | rfl | rfl | rfl
    · rcases le_total y z with h | h
      · refine ⟨_, mem_nth 6 rfl, (hull_at3 c0 c4 c7).2
          ⟨1 - z, z - y, y, by linarith, by linarith, by linarith, by ring, ?_⟩⟩
        congr 1 <;> ring
      · refine ⟨_, mem_nth 7 rfl, (hull_at3 c0 c7 c3).2
          ⟨1 - y, z, y - z, by linarith, by linarith, by linarith, by ring, ?_⟩⟩
        congr 1 <;> ring
    · rcases le_total y z with h | h
      · refine ⟨_, mem_nth 4 rfl, (hull_at3 c1 c5 c6).2
          ⟨1 - z, z - y, y, by linarith, by linarith, by linarith, by ring, ?_⟩⟩
        congr 1 <;> ring
      · refine ⟨_, mem_nth 5 rfl, (hull_at3 c1 c6 c2).2
          ⟨1 - y, z, y - z, by linarith, by linarith, by linarith, by ring, ?_⟩⟩
        congr 1 <;> ring
    · rcases le_total z x with h | h
      · refine ⟨_, mem_nth 10 rfl, (hull_at3 c0 c1 c5).2
          ⟨1 - x, x - z, z, by linarith, by linarith, by linarith, by ring, ?_⟩⟩
        congr 1 <;> ring
      · refine ⟨_, mem_nth 11 rfl, (hull_at3 c0 c4 c5).2
          ⟨1 - z, z - x, x, by linarith, by linarith, by linarith, by ring, ?_⟩⟩
        congr 1 <;> ring
    · rcases le_total z x with h | h
      · refine ⟨_, mem_nth 8 rfl, (hull_at3 c3 c2 c6).2
          ⟨1 - x, x - z, z, by linarith, by linarith, by linarith, by ring, ?_⟩⟩
        congr 1 <;> ring
      · refine ⟨_, mem_nth 9 rfl, (hull_at3 c3 c6 c7).2
          ⟨1 - z, x, z - x, by linarith, by linarith, by linarith, by ring, ?_⟩⟩
        congr 1 <;> ring
    · rcases le_total y x with h | h
      · refine ⟨_, mem_nth 0 rfl, (hull_at3 c0 c1 c2).2
          ⟨1 - x, x - y, y, by linarith, by linarith, by linarith, by ring, ?_⟩⟩
        congr 1 <;> ring
      · refine ⟨_, mem_nth 1 rfl, (hull_at3 c0 c3 c2).2
          ⟨1 - y, y - x, x, by linarith, by linarith, by linarith, by ring, ?_⟩⟩
        congr 1 <;> ring
    · rcases le_total y x with h | h
      · refine ⟨_, mem_nth 2 rfl, (hull_at3 c4 c5 c6).2
          ⟨1 - x, x - y, y, by linarith, by linarith, by linarith, by ring, ?_⟩⟩
        congr 1 <;> ring
      · refine ⟨_, mem_nth 3 rfl, (hull_at3 c4 c6 c7).2
          ⟨1 - y, x, y - x, by linarith, by linarith, by linarith, by ring, ?_⟩⟩
        congr 1 <;> ring

/-! ### Volumes -/

theorem tet_ppd (o e1 e2 e3 : V3 K) : ∀ t ∈ boxTris (ppd o e1 e2 e3),
    tet (boxCenter (ppd o e1 e2 e3)) t = |det3 e1 e2 e3| / 12 := by
  intro t ht
  rw [boxCenter_ppd]
  rw [boxTris_ppd] at ht
  simp only [List.mem_cons, List.not_mem_nil, or_false] at ht
  have key : ∀ t : Tri K, (dot (t.v0 - at3 o e1 e2 e3 (1/2) (1/2) (1/2))
        (cross (t.v1 - at3 o e1 e2 e3 (1/2) (1/2) (1/2)) (t.v2 - at3 o e1 e2 e3 (1/2) (1/2) (1/2)))
          = 1 / 2 * det3 e1 e2 e3 ∨
      dot (t.v0 - at3 o e1 e2 e3 (1/2) (1/2) (1/2))
        (cross (t.v1 - at3 o e1 e2 e3 (1/2) (1/2) (1/2)) (t.v2 - at3 o e1 e2 e3 (1/2) (1/2) (1/2)))
          = -(1 / 2 * det3 e1 e2 e3)) →
      tet (at3 o e1 e2 e3 (1/2) (1/2) (1/2)) t = |det3 e1 e2 e3| / 12 := by
    rintro t (h | h)
    · rw [tet, h, abs_mul, abs_of_pos (by norm_num : (0 : K) < 1 / 2)]; ring
    · rw [tet, h, abs_neg, abs_mul, abs_of_pos (by norm_num : (0 : K) < 1 / 2)]; ring
  apply key
  rcases ht with rfl | rfl | rfl | rfl | rfl | rfl | rfl | rfl | rfl | rfl | rfl | rfl
  all_goals
    simp only [dot, cross, det3, at3, add_x, add_y, add_z, sub_x, sub_y, sub_z, smul_x, smul_y, smul_z]
    first
      | (left; ring1)
      | (right; ring1)

/-- **The volume of a box is the volume of the parallelepiped.** -/
theorem vol1_ppd (o e1 e2 e3 : V3 K) : vol1 (ppd o e1 e2 e3) = |det3 e1 e2 e3| := by
  have h : (boxTris (ppd o e1 e2 e3)).map (tet (boxCenter (ppd o e1 e2 e3)))
      = (boxTris (ppd o e1 e2 e3)).map (fun _ => |det3 e1 e2 e3| / 12) :=
    List.map_congr_left (tet_ppd o e1 e2 e3)
  rw [vol1, boxVolume, h, boxTris_ppd]
  simp only [List.map_cons, List.map_nil, List.sum_cons, List.sum_nil]
  ring

theorem polyCenter_ppd (o e1 e2 e3 : V3 K) :
    polyCenter (boxTris (ppd o e1 e2 e3)) = boxCenter (ppd o e1 e2 e3) := by
  rw [boxCenter_ppd, polyCenter, boxTris_ppd]
  simp only [List.map_cons, List.map_nil, List.sum_cons, List.sum_nil, triCenter, List.length_cons,
    List.length_nil]
  ext <;> simp [at3] <;> ring

/-! ### Equal, nested and disjoint boxes -/

theorem clip_inside (q : Quad K) (n : V3 K) (t : Tri K) (h : ∀ v ∈ t.verts, 0 ≤ height q n v) :
    clip (sq K) q n t = [t] := by
  have h0 := (inside_iff q n _).2 (h t.v0 (by simp [Tri.verts]))
  have h1 := (inside_iff q n _).2 (h t.v1 (by simp [Tri.verts]))
  have h2 := (inside_iff q n _).2 (h t.v2 (by simp [Tri.verts]))
  unfold clip clipWith
  rw [h0, h1, h2]
  simp

/-- Triangles inside all planes are not changed. -/
theorem boxIntersections_inside (c : V3 K) (l : List (Tri K)) (qs : List (Quad K))
    (h : ∀ t ∈ l, ∀ q ∈ qs, ∀ v ∈ t.verts, 0 ≤ height q (dirS q c) v) :
    boxIntersections (sq K) l qs c = l := by
  induction qs with
  | nil => rfl
  | cons q qs ih =>
    have h1 : cut (sq K) c l q = l := by
      have : ∀ t ∈ l, clip (sq K) q (dirS q c) t = [t] := fun t ht =>
        clip_inside q _ t (h t ht q (List.mem_cons_self ..))
      have hd : (sq K).dir q c = dirS q c := rfl
      rw [cut, hd, List.flatMap_congr this]
      simp
    have h2 : boxIntersections (sq K) l (q :: qs) c
        = boxIntersections (sq K) (cut (sq K) c l q) qs c := rfl
    rw [h2, h1]
    exact ih fun t ht q' hq => h t ht q' (List.mem_cons_of_mem _ hq)

theorem farthest_dot (n : V3 K) (l : List (V3 K × V3 K)) (h : ∀ e ∈ l, dot (e.1 - e.2) n = 0) :
    dot (farthestS l) n = 0 := by
  suffices hk : ∀ s : V3 K × V3 K × K, dot (s.1 - s.2.1) n = 0 →
      dot ((l.foldl argStepS s).1 - (l.foldl argStepS s).2.1) n = 0 from
    hk (0, 0, -1) (by simp [dot])
  induction l with
  | nil => exact fun s hs => hs
  | cons e l ih =>
    intro s hs
    refine ih (fun e' he => h e' (List.mem_cons_of_mem _ he)) _ ?_
    unfold argStepS
    split_ifs
    · exact h e (List.mem_cons_self ..)
    · exact hs

/-- A triangle that is not tiny is coplanar with itself. -/
theorem tt_self (t : Tri K) (h : (sq K).big t = true) : ttS t t = true := by
  have hb : normSq (cross (t.v1 - t.v0) (t.v2 - t.v0)) > 4 * (1 / 10000) ^ 2 := of_decide_eq_true h
  have hc : triCross t = (1 / 3 : K) • cross (t.v1 - t.v0) (t.v2 - t.v0) := by
    ext <;> simp [triCross, triCenter, cross] <;> ring
  have hn : normSq (triCross t) = 1 / 9 * normSq (cross (t.v1 - t.v0) (t.v2 - t.v0)) := by
    rw [hc, normSq_smul]; ring
  have hm : m2 (triCross t) = normSq (triCross t) := by
    refine max_eq_left ?_
    rw [hn]; norm_num at hb ⊢; linarith
  have hp : 0 < normSq (triCross t) := by rw [← hm]; exact m2_pos _
  have h1 : Par (triCross t) (triCross t) := by
    unfold Par
    rw [hm, show dot (triCross t) (triCross t) = normSq (triCross t) from rfl]
    nlinarith [mul_pos hp hp]
  have h2 : ¬ Steep (farthestS (pairs t.verts t.verts)) (triCross t) := by
    unfold Steep
    rw [farthest_dot]
    · have := m2_pos (farthestS (pairs t.verts t.verts))
      have := m2_pos (triCross t)
      rw [not_le, zero_pow two_ne_zero]; positivity
    · rw [hc]
      intro e he
      simp only [pairs, Tri.verts, List.flatMap_cons, List.flatMap_nil, List.map_cons, List.map_nil,
        List.append_nil, List.cons_append, List.nil_append, List.mem_cons, List.not_mem_nil,
        or_false] at he
      rcases he with rfl | rfl | rfl | rfl | rfl | rfl | rfl | rfl | rfl <;>
        simp [dot, cross] <;> ring
  unfold ttS
  dsimp only
  rw [decide_eq_true h1, decide_eq_true h2]; rfl

theorem ppd_tris_ne (o e1 e2 e3 : V3 K) : boxTris (ppd o e1 e2 e3) ≠ [] := by
  rw [boxTris_ppd]; simp

theorem shapeVol_ppd (o e1 e2 e3 : V3 K) : shapeVol (boxTris (ppd o e1 e2 e3)) = |det3 e1 e2 e3| := by
  rw [shapeVol, if_neg (ppd_tris_ne o e1 e2 e3), polyCenter_ppd]
  exact vol1_ppd o e1 e2 e3

theorem verts_surface {o e1 e2 e3 : V3 K} {t : Tri K} (ht : t ∈ boxTris (ppd o e1 e2 e3)) {v : V3 K}
    (hv : v ∈ t.verts) : Surface o e1 e2 e3 v := by
  refine (surface_ppd o e1 e2 e3 v).1 ⟨t, ht, ?_⟩
  simp only [Tri.verts, List.mem_cons, List.not_mem_nil, or_false] at hv
  rcases hv with rfl | rfl | rfl
  · exact ⟨1, 0, 0, by norm_num, by norm_num, by norm_num, by ring, by ext <;> simp⟩
  · exact ⟨0, 1, 0, by norm_num, by norm_num, by norm_num, by ring, by ext <;> simp⟩
  · exact ⟨0, 0, 1, by norm_num, by norm_num, by norm_num, by ring, by ext <;> simp⟩

theorem surface_solid {o e1 e2 e3 p : V3 K} (h : Surface o e1 e2 e3 p) : Solid o e1 e2 e3 p := by
  obtain ⟨x, y, z, hx, hy, hz, _, e⟩ := h
  exact ⟨x, y, z, hx, hy, hz, e⟩

theorem surface_not_inner {o e1 e2 e3 p : V3 K} (hd : det3 e1 e2 e3 ≠ 0)
    (h : Surface o e1 e2 e3 p) : ¬ Inner o e1 e2 e3 p := by
  rintro ⟨x', y', z', hx', hy', hz', e'⟩
  obtain ⟨x, y, z, hx, hy, hz, hb, rfl⟩ := h
  obtain ⟨rfl, rfl, rfl⟩ := coords_inj hd e'
  rcases hb with h | h | h | h | h | h <;> linarith [hx'.1, hx'.2, hy'.1, hy'.2, hz'.1, hz'.2]

/-- **A box overlaps itself completely.** -/
theorem self_sq (o e1 e2 e3 : V3 K) (hd : det3 e1 e2 e3 ≠ 0)
    (ha : ∀ t ∈ boxTris (ppd o e1 e2 e3), (sq K).big t = true) :
    overlap (sq K) (ppd o e1 e2 e3) (ppd o e1 e2 e3) = (|det3 e1 e2 e3|, 1) := by
  have hi : boxIntersections (sq K) (boxTris (ppd o e1 e2 e3)) (boxPlanes (ppd o e1 e2 e3))
      (boxCenter (ppd o e1 e2 e3)) = boxTris (ppd o e1 e2 e3) := by
    refine boxIntersections_inside _ _ _ fun t ht q hq v hv => ?_
    exact (inside_ppd o e1 e2 e3 v hd).2 (surface_solid (verts_surface ht hv)) q hq
  have hk : keep (sq K) (boxTris (ppd o e1 e2 e3)) (boxTris (ppd o e1 e2 e3)) = [] := by
    refine List.filter_eq_nil_iff.2 fun t ht => ?_
    simp only [Bool.not_eq_true, Bool.not_eq_false', List.any_eq_true, Bool.and_eq_true]
    exact ⟨t, ht, tt_self t (ha t ht), ha t ht⟩
  have hs : shape (sq K) (ppd o e1 e2 e3) (ppd o e1 e2 e3) = boxTris (ppd o e1 e2 e3) := by
    simp only [shape, hi, hk, List.append_nil]
  have hp := abs_pos.2 hd
  rw [overlap, hs, shapeIou, if_neg (ppd_tris_ne o e1 e2 e3), shapeVol_ppd, vol1_ppd]
  congr 1
  rw [show |det3 e1 e2 e3| + |det3 e1 e2 e3| - |det3 e1 e2 e3| = |det3 e1 e2 e3| by ring, div_self hp.ne']

theorem pos_mix {x a b : K} (h0 : 0 ≤ x) (h1 : x ≤ 1) (ha : 0 < a) (hb : 0 < b) :
    0 < (1 - x) * a + x * b := by
  rcases h0.lt_or_eq with h | h
  · exact add_pos_of_nonneg_of_pos (mul_nonneg (by linarith) ha.le) (mul_pos h hb)
  · rw [← h]; linarith

/-- A box is convex. -/
theorem solid_pos {o e1 e2 e3 p : V3 K} (q : Quad K) (n : V3 K) (hp : Solid o e1 e2 e3 p)
    (h : ∀ i, 0 < height q n (ppd o e1 e2 e3 i)) : 0 < height q n p := by
  obtain ⟨x, y, z, ⟨x0, x1⟩, ⟨y0, y1⟩, ⟨z0, z1⟩, rfl⟩ := hp
  have e : height q n (at3 o e1 e2 e3 x y z)
      = (1 - z) * ((1 - y) * ((1 - x) * height q n (ppd o e1 e2 e3 0) + x * height q n (ppd o e1 e2 e3 1))
          + y * ((1 - x) * height q n (ppd o e1 e2 e3 3) + x * height q n (ppd o e1 e2 e3 2)))
        + z * ((1 - y) * ((1 - x) * height q n (ppd o e1 e2 e3 4) + x * height q n (ppd o e1 e2 e3 5))
          + y * ((1 - x) * height q n (ppd o e1 e2 e3 7) + x * height q n (ppd o e1 e2 e3 6))) := by
    have p0 : ppd o e1 e2 e3 0 = o := rfl
    have p1 : ppd o e1 e2 e3 1 = o + e1 := rfl
    have p2 : ppd o e1 e2 e3 2 = o + e1 + e2 := rfl
    have p3 : ppd o e1 e2 e3 3 = o + e2 := rfl
    have p4 : ppd o e1 e2 e3 4 = o + e3 := rfl
    have p5 : ppd o e1 e2 e3 5 = o + e1 + e3 := rfl
    have p6 : ppd o e1 e2 e3 6 = o + e1 + e2 + e3 := rfl
    have p7 : ppd o e1 e2 e3 7 = o + e2 + e3 := rfl
    rw [p0, p1, p2, p3, p4, p5, p6, p7]
    simp only [height, dot, at3, add_x, add_y, add_z, sub_x, sub_y, sub_z, smul_x, smul_y, smul_z]
    ring
  rw [e]
  exact pos_mix z0 z1 (pos_mix y0 y1 (pos_mix x0 x1 (h 0) (h 1)) (pos_mix x0 x1 (h 3) (h 2)))
    (pos_mix y0 y1 (pos_mix x0 x1 (h 4) (h 5)) (pos_mix x0 x1 (h 7) (h 6)))

theorem solid_inner {o e1 e2 e3 o' f1 f2 f3 p : V3 K} (hd' : det3 f1 f2 f3 ≠ 0)
    (hin : ∀ i, Inner o' f1 f2 f3 (ppd o e1 e2 e3 i)) (hp : Solid o e1 e2 e3 p) :
    Inner o' f1 f2 f3 p :=
  (inner_ppd o' f1 f2 f3 p hd').1 fun q hq =>
    solid_pos q _ hp fun i => (inner_ppd o' f1 f2 f3 _ hd').2 (hin i) q hq

theorem inner_solid {o e1 e2 e3 p : V3 K} (h : Inner o e1 e2 e3 p) : Solid o e1 e2 e3 p := by
  obtain ⟨x, y, z, ⟨a, b⟩, ⟨c, d⟩, ⟨e, f⟩, g⟩ := h
  exact ⟨x, y, z, ⟨a.le, b.le⟩, ⟨c.le, d.le⟩, ⟨e.le, f.le⟩, g⟩

/-- The pieces of the first box are the part of its surface in the second box. -/
theorem pieces_cover (o e1 e2 e3 o' f1 f2 f3 : V3 K) (hd' : det3 f1 f2 f3 ≠ 0)
    (hs : SharpAll (boxCenter (ppd o' f1 f2 f3)) (boxTris (ppd o e1 e2 e3))
      (boxPlanes (ppd o' f1 f2 f3))) (p : V3 K) :
    Cover (boxIntersections (sq K) (boxTris (ppd o e1 e2 e3)) (boxPlanes (ppd o' f1 f2 f3))
        (boxCenter (ppd o' f1 f2 f3))) p
      ↔ Surface o e1 e2 e3 p ∧ Solid o' f1 f2 f3 p := by
  rw [boxIntersections_cover _ _ _ hs, surface_ppd, inside_ppd _ _ _ _ _ hd']

theorem pieces_nil (o e1 e2 e3 o' f1 f2 f3 : V3 K) (hd' : det3 f1 f2 f3 ≠ 0)
    (hs : SharpAll (boxCenter (ppd o' f1 f2 f3)) (boxTris (ppd o e1 e2 e3))
      (boxPlanes (ppd o' f1 f2 f3)))
    (h : ∀ p, Surface o e1 e2 e3 p → ¬ Solid o' f1 f2 f3 p) :
    boxIntersections (sq K) (boxTris (ppd o e1 e2 e3)) (boxPlanes (ppd o' f1 f2 f3))
        (boxCenter (ppd o' f1 f2 f3)) = [] := by
  rw [boxIntersections_nil _ _ _ hs]
  rintro ⟨p, h1, h2⟩
  exact h p ((surface_ppd o e1 e2 e3 p).1 h1) ((inside_ppd o' f1 f2 f3 p hd').1 h2)

theorem pieces_all (o e1 e2 e3 o' f1 f2 f3 : V3 K) (hd' : det3 f1 f2 f3 ≠ 0)
    (hin : ∀ i, Inner o' f1 f2 f3 (ppd o e1 e2 e3 i)) :
    boxIntersections (sq K) (boxTris (ppd o e1 e2 e3)) (boxPlanes (ppd o' f1 f2 f3))
        (boxCenter (ppd o' f1 f2 f3)) = boxTris (ppd o e1 e2 e3) :=
  boxIntersections_inside _ _ _ fun _ ht q hq v hv =>
    (inside_ppd o' f1 f2 f3 v hd').2
      (inner_solid (solid_inner hd' hin (surface_solid (verts_surface ht hv)))) q hq

theorem keep_nil (op : Ops K) (l : List (Tri K)) : keep op l [] = [] := rfl
theorem nil_keep (op : Ops K) (l : List (Tri K)) : keep op [] l = l := by simp [keep]

theorem nested_sq (o e1 e2 e3 o' f1 f2 f3 : V3 K) (hd : det3 e1 e2 e3 ≠ 0) (hd' : det3 f1 f2 f3 ≠ 0)
    (hin : ∀ i, Inner o' f1 f2 f3 (ppd o e1 e2 e3 i))
    (hs : SharpAll (boxCenter (ppd o e1 e2 e3)) (boxTris (ppd o' f1 f2 f3))
      (boxPlanes (ppd o e1 e2 e3))) :
    overlap (sq K) (ppd o e1 e2 e3) (ppd o' f1 f2 f3)
        = (|det3 e1 e2 e3|, |det3 e1 e2 e3| / |det3 f1 f2 f3|) ∧
      overlap (sq K) (ppd o' f1 f2 f3) (ppd o e1 e2 e3)
        = (|det3 e1 e2 e3|, |det3 e1 e2 e3| / |det3 f1 f2 f3|) := by
  have h1 := pieces_all o e1 e2 e3 o' f1 f2 f3 hd' hin
  have h2 := pieces_nil o' f1 f2 f3 o e1 e2 e3 hd hs fun p hp hq =>
    surface_not_inner hd' hp (solid_inner hd' hin hq)
  have s1 : shape (sq K) (ppd o e1 e2 e3) (ppd o' f1 f2 f3) = boxTris (ppd o e1 e2 e3) := by
    simp only [shape, h1, h2, keep_nil, List.append_nil]
  have s2 : shape (sq K) (ppd o' f1 f2 f3) (ppd o e1 e2 e3) = boxTris (ppd o e1 e2 e3) := by
    simp only [shape, h1, h2, nil_keep, List.nil_append]
  constructor
  · rw [overlap, s1, shapeIou, if_neg (ppd_tris_ne o e1 e2 e3), shapeVol_ppd, vol1_ppd, vol1_ppd,
      add_sub_cancel_left]
  · rw [overlap, s2, shapeIou, if_neg (ppd_tris_ne o e1 e2 e3), shapeVol_ppd, vol1_ppd, vol1_ppd,
      add_sub_cancel_right]

theorem disjoint_sq (o e1 e2 e3 o' f1 f2 f3 : V3 K) (hd : det3 e1 e2 e3 ≠ 0)
    (hd' : det3 f1 f2 f3 ≠ 0) (h : ∀ p, ¬ (Solid o e1 e2 e3 p ∧ Solid o' f1 f2 f3 p))
    (hs1 : SharpAll (boxCenter (ppd o' f1 f2 f3)) (boxTris (ppd o e1 e2 e3))
      (boxPlanes (ppd o' f1 f2 f3)))
    (hs2 : SharpAll (boxCenter (ppd o e1 e2 e3)) (boxTris (ppd o' f1 f2 f3))
      (boxPlanes (ppd o e1 e2 e3))) :
    overlap (sq K) (ppd o e1 e2 e3) (ppd o' f1 f2 f3) = (0, 0) := by
  have h1 := pieces_nil o e1 e2 e3 o' f1 f2 f3 hd' hs1 fun p a b => h p ⟨surface_solid a, b⟩
  have h2 := pieces_nil o' f1 f2 f3 o e1 e2 e3 hd hs2 fun p a b => h p ⟨b, surface_solid a⟩
  have s1 : shape (sq K) (ppd o e1 e2 e3) (ppd o' f1 f2 f3) = [] := by
    simp only [shape, h1, h2, keep_nil, List.append_nil]
  rw [overlap, s1]; simp [shapeVol, shapeIou]

/-! ### The statements about the code -/

/-- **A box overlaps itself completely**: the volume of the box and an IoU of 1, for every parallelepiped
whose faces are not tiny. -/
theorem self_overlap (o e1 e2 e3 : V3 ℝ) (hd : det3 e1 e2 e3 ≠ 0)
    (ha : ∀ t ∈ boxTris (ppd o e1 e2 e3), aEps < faceArea t) :
    overlap ops (ppd o e1 e2 e3) (ppd o e1 e2 e3) = (|det3 e1 e2 e3|, 1) := by
  rw [overlap_eq]
  refine self_sq o e1 e2 e3 hd fun t ht => ?_
  rw [← big_eq]
  exact decide_eq_true (ha t ht)

/-- **A box inside another**: the volume of the inner box and the ratio of the volumes, in either order. -/
theorem nested_overlap (o e1 e2 e3 o' f1 f2 f3 : V3 ℝ) (hd : det3 e1 e2 e3 ≠ 0)
    (hd' : det3 f1 f2 f3 ≠ 0) (hin : ∀ i, Inner o' f1 f2 f3 (ppd o e1 e2 e3 i))
    (hs : SharpAll (boxCenter (ppd o e1 e2 e3)) (boxTris (ppd o' f1 f2 f3))
      (boxPlanes (ppd o e1 e2 e3))) :
    overlap ops (ppd o e1 e2 e3) (ppd o' f1 f2 f3)
        = (|det3 e1 e2 e3|, |det3 e1 e2 e3| / |det3 f1 f2 f3|) ∧
      overlap ops (ppd o' f1 f2 f3) (ppd o e1 e2 e3)
        = (|det3 e1 e2 e3|, |det3 e1 e2 e3| / |det3 f1 f2 f3|) := by
  rw [overlap_eq, overlap_eq]
  exact nested_sq o e1 e2 e3 o' f1 f2 f3 hd hd' hin hs

/-- **Boxes without a common point** have volume 0 and IoU 0. -/
theorem disjoint_overlap (o e1 e2 e3 o' f1 f2 f3 : V3 ℝ) (hd : det3 e1 e2 e3 ≠ 0)
    (hd' : det3 f1 f2 f3 ≠ 0) (h : ∀ p, ¬ (Solid o e1 e2 e3 p ∧ Solid o' f1 f2 f3 p))
    (hs1 : SharpAll (boxCenter (ppd o' f1 f2 f3)) (boxTris (ppd o e1 e2 e3))
      (boxPlanes (ppd o' f1 f2 f3)))
    (hs2 : SharpAll (boxCenter (ppd o e1 e2 e3)) (boxTris (ppd o' f1 f2 f3))
      (boxPlanes (ppd o e1 e2 e3))) :
    overlap ops (ppd o e1 e2 e3) (ppd o' f1 f2 f3) = (0, 0) := by
  rw [overlap_eq]
  exact disjoint_sq o e1 e2 e3 o' f1 f2 f3 hd hd' h hs1 hs2

/-- The faces of the intersecting shape that come from the first box are exactly the part of its surface
in the second box. -/
theorem faces_exact (o e1 e2 e3 o' f1 f2 f3 : V3 ℝ) (hd' : det3 f1 f2 f3 ≠ 0)
    (hs : SharpAll (boxCenter (ppd o' f1 f2 f3)) (boxTris (ppd o e1 e2 e3))
      (boxPlanes (ppd o' f1 f2 f3))) (p : V3 ℝ) :
    Cover (boxIntersections ops (boxTris (ppd o e1 e2 e3)) (boxPlanes (ppd o' f1 f2 f3))
        (boxCenter (ppd o' f1 f2 f3))) p
      ↔ Surface o e1 e2 e3 p ∧ Solid o' f1 f2 f3 p := by
  rw [boxIntersections_eq]
  exact pieces_cover o e1 e2 e3 o' f1 f2 f3 hd' hs p

/-- Whatever the thresholds do, the faces of the intersecting shape lie on the surfaces of the boxes. -/
theorem shape_surface (o e1 e2 e3 o' f1 f2 f3 p : V3 ℝ)
    (h : Cover (shape ops (ppd o e1 e2 e3) (ppd o' f1 f2 f3)) p) :
    Surface o e1 e2 e3 p ∨ Surface o' f1 f2 f3 p := by
  obtain ⟨t, ht, hp⟩ := h
  simp only [shape, boxIntersections_eq, List.mem_append] at ht
  rcases ht with ht | ht
  · exact Or.inl ((surface_ppd _ _ _ _ p).1 (boxIntersections_sub _ _ _ p ⟨t, ht, hp⟩))
  · exact Or.inr ((surface_ppd _ _ _ _ p).1
      (boxIntersections_sub _ _ _ p ⟨t, (List.mem_filter.1 ht).1, hp⟩))

/-- The volume is never negative. -/
theorem vol_nonneg (b1 b2 : Box ℝ) : 0 ≤ (overlap ops b1 b2).1 := by
  simp only [overlap, shapeVol]
  split_ifs
  · exact le_rfl
  · exact boxVolume_nonneg _ _

theorem aabb_ppd {K : Type} [Field K] (lo hi : V3 K) :
    aabb lo hi = ppd lo ⟨hi.x - lo.x, 0, 0⟩ ⟨0, hi.y - lo.y, 0⟩ ⟨0, 0, hi.z - lo.z⟩ := by
  funext i
  fin_cases i <;> ext <;> simp [aabb, ppd]

/-! ### The checks of `box3d_overlap` -/

/-- `_box_planes`, `iou_box3d.py:26-33`. -/
def pyPlanes {K : Type} (b : Box K) : List (Quad K) :=
  [(0, 1, 2, 3), (3, 2, 6, 7), (0, 1, 5, 4), (0, 3, 7, 4), (1, 2, 6, 5), (4, 5, 6, 7)].map
    fun i : Fin 8 × Fin 8 × Fin 8 × Fin 8 => ⟨b i.1, b i.2.1, b i.2.2.1, b i.2.2.2⟩

/-- The errors raised. -/
inductive Err
  | coplanar
  | zeroArea
  deriving DecidableEq

noncomputable section

/-- `F.normalize`. -/
def normalizeF (v : V3 ℝ) : V3 ℝ := (max (norm3 v) (1 / 10 ^ 12))⁻¹ • v

/-- `normal`, `iou_box3d.py:59-61`. -/
def faceDir (q : Quad ℝ) : V3 ℝ :=
  normalizeF (cross (normalizeF (q.v1 - q.v0)) (normalizeF (q.v2 - q.v0)))

/-- The product `(1, P*3) x (P*3, 1)` of `iou_box3d.py:64-66`: a sum over the six planes. -/
def checkSum (b : Box ℝ) : ℝ := ((pyPlanes b).map fun q => dot (q.v3 - q.v0) (faceDir q)).sum

/-- `_check_coplanar`, `iou_box3d.py:50-70`. -/
def checkCoplanar (eps : ℝ) (bs : List (Box ℝ)) : Bool := bs.all fun b => decide (|checkSum b| < eps)

/-- `_check_nonzero`, `iou_box3d.py:73-91`. -/
def checkNonzero (eps : ℝ) (bs : List (Box ℝ)) : Bool :=
  bs.all fun b => (boxTris b).all fun t => !decide (faceArea t < eps)

/-- `box3d_overlap`, `iou_box3d.py:114-169`, on the CPU. -/
def box3dOverlap (eps : ℝ) (bs1 bs2 : List (Box ℝ)) : Except Err (List (List (ℝ × ℝ))) :=
  if !checkCoplanar eps bs1 || !checkCoplanar eps bs2 then .error .coplanar
  else if !checkNonzero eps bs1 || !checkNonzero eps bs2 then .error .zeroArea
  else .ok (overlaps ops bs1 bs2)

end

theorem faceDir_smul (q : Quad ℝ) : ∃ k : ℝ, faceDir q = k • cross (q.v1 - q.v0) (q.v2 - q.v0) := by
  have h : ∀ v : V3 ℝ, ∃ k : ℝ, normalizeF v = k • v := fun v => ⟨_, rfl⟩
  obtain ⟨a, ha⟩ := h (q.v1 - q.v0)
  obtain ⟨b, hb⟩ := h (q.v2 - q.v0)
  obtain ⟨c, hc⟩ := h (cross (a • (q.v1 - q.v0)) (b • (q.v2 - q.v0)))
  refine ⟨c * (a * b), ?_⟩
  rw [faceDir, ha, hb, hc]
  ext <;> simp [cross] <;> ring

/-- Is the fourth vertex in the plane of the others? -/
def Planar (q : Quad ℝ) : Prop := dot (q.v3 - q.v0) (cross (q.v1 - q.v0) (q.v2 - q.v0)) = 0

theorem term_planar {q : Quad ℝ} (h : Planar q) : dot (q.v3 - q.v0) (faceDir q) = 0 := by
  obtain ⟨k, hk⟩ := faceDir_smul q
  rw [hk, dot_smul, h, mul_zero]

/-- Boxes with planar faces pass the check. -/
theorem check_planar (eps : ℝ) (he : 0 < eps) (bs : List (Box ℝ))
    (h : ∀ b ∈ bs, ∀ q ∈ pyPlanes b, Planar q) : checkCoplanar eps bs = true := by
  refine List.all_eq_true.2 fun b hb => decide_eq_true ?_
  have : (pyPlanes b).map (fun q => dot (q.v3 - q.v0) (faceDir q)) = (pyPlanes b).map fun _ => (0 : ℝ) :=
    List.map_congr_left fun q hq => term_planar (h b hb q hq)
  rw [checkSum, this]; simpa using he

/-- Parallelepipeds pass the check. -/
theorem check_ppd (eps : ℝ) (he : 0 < eps) (o e1 e2 e3 : V3 ℝ) :
    checkCoplanar eps [ppd o e1 e2 e3] = true := by
  refine check_planar eps he _ fun b hb q hq => ?_
  rw [List.mem_singleton.1 hb] at hq
  have : pyPlanes (ppd o e1 e2 e3) =
      [⟨o, o + e1, o + e1 + e2, o + e2⟩, ⟨o + e2, o + e1 + e2, o + e1 + e2 + e3, o + e2 + e3⟩,
        ⟨o, o + e1, o + e1 + e3, o + e3⟩, ⟨o, o + e2, o + e2 + e3, o + e3⟩,
        ⟨o + e1, o + e1 + e2, o + e1 + e2 + e3, o + e1 + e3⟩,
        ⟨o + e3, o + e1 + e3, o + e1 + e2 + e3, o + e2 + e3⟩] := rfl
  rw [this] at hq
  simp only [List.mem_cons, List.not_mem_nil, or_false] at hq
  rcases hq with rfl | rfl | rfl | rfl | rfl | rfl <;> simp [Planar, dot, cross] <;> ring

/-- The unit cube with two corners moved along the z axis. -/
def twisted (a b : ℝ) : Box ℝ :=
  ![⟨0, 0, 0⟩, ⟨1, 0, 0⟩, ⟨1, 1, 0⟩, ⟨0, 1, a⟩, ⟨0, 0, 1⟩, ⟨1, 0, 1⟩, ⟨1, 1, 1⟩, ⟨0, 1, 1 + b⟩]

theorem twisted_sum (a b : ℝ) : checkSum (twisted a b) = a + b := by
  have hpl : pyPlanes (twisted a b) =
      [⟨⟨0, 0, 0⟩, ⟨1, 0, 0⟩, ⟨1, 1, 0⟩, ⟨0, 1, a⟩⟩,
        ⟨⟨0, 1, a⟩, ⟨1, 1, 0⟩, ⟨1, 1, 1⟩, ⟨0, 1, 1 + b⟩⟩,
        ⟨⟨0, 0, 0⟩, ⟨1, 0, 0⟩, ⟨1, 0, 1⟩, ⟨0, 0, 1⟩⟩,
        ⟨⟨0, 0, 0⟩, ⟨0, 1, a⟩, ⟨0, 1, 1 + b⟩, ⟨0, 0, 1⟩⟩,
        ⟨⟨1, 0, 0⟩, ⟨1, 1, 0⟩, ⟨1, 1, 1⟩, ⟨1, 0, 1⟩⟩,
        ⟨⟨0, 0, 1⟩, ⟨1, 0, 1⟩, ⟨1, 1, 1⟩, ⟨0, 1, 1 + b⟩⟩] := rfl
  have r2 : (1 : ℝ) ≤ √2 := Real.one_le_sqrt.2 (by norm_num)
  have r20 : √2 ≠ 0 := by linarith
  have n1 : normalizeF ⟨1, 0, 0⟩ = ⟨1, 0, 0⟩ := by
    have : max (norm3 ⟨1, 0, 0⟩) (1 / 10 ^ 12) = 1 := by
      rw [norm3]; simp [normSq, dot]; norm_num
    rw [normalizeF, this]; ext <;> simp
  have n2 : normalizeF ⟨1, 1, 0⟩ = ⟨(√2)⁻¹, (√2)⁻¹, 0⟩ := by
    have : max (norm3 ⟨1, 1, 0⟩) (1 / 10 ^ 12) = √2 := by
      have h : norm3 ⟨1, 1, 0⟩ = √2 := by
        rw [norm3]; congr 1; simp [normSq, dot]; norm_num
      rw [h]; refine max_eq_left (le_trans ?_ r2); norm_num
    rw [normalizeF, this]; ext <;> simp
  have n3 : normalizeF ⟨0, 0, (√2)⁻¹⟩ = ⟨0, 0, 1⟩ := by
    have hp : 0 < (√2)⁻¹ := inv_pos.2 (by linarith)
    have h : norm3 ⟨0, 0, (√2)⁻¹⟩ = (√2)⁻¹ := by
      rw [norm3, show normSq (⟨0, 0, (√2)⁻¹⟩ : V3 ℝ) = (√2)⁻¹ ^ 2 by simp [normSq, dot, pow_two],
        Real.sqrt_sq hp.le]
    have hle : (1 / 10 ^ 12 : ℝ) ≤ (√2)⁻¹ := by
      rw [one_div]
      refine inv_anti₀ (by linarith) ?_
      refine Real.sqrt_le_iff.2 ⟨by norm_num, by norm_num⟩
    have : max (norm3 ⟨0, 0, (√2)⁻¹⟩) (1 / 10 ^ 12) = (√2)⁻¹ := by rw [h]; exact max_eq_left hle
    rw [normalizeF, this]
    ext <;> simp [r20]
  have f0 : ∀ (x : ℝ) (v : V3 ℝ), faceDir ⟨⟨0, 0, x⟩, ⟨1, 0, x⟩, ⟨1, 1, x⟩, v⟩ = ⟨0, 0, 1⟩ := by
    intro x v
    have d1 : (⟨1, 0, x⟩ - ⟨0, 0, x⟩ : V3 ℝ) = ⟨1, 0, 0⟩ := by ext <;> simp
    have d2 : (⟨1, 1, x⟩ - ⟨0, 0, x⟩ : V3 ℝ) = ⟨1, 1, 0⟩ := by ext <;> simp
    rw [faceDir]
    simp only [d1, d2, n1, n2]
    rw [← n3]; congr 1; ext <;> simp [cross]
  rw [checkSum, hpl]
  simp only [List.map_cons, List.map_nil, List.sum_cons, List.sum_nil]
  rw [f0, f0, term_planar (q := ⟨⟨0, 1, a⟩, ⟨1, 1, 0⟩, ⟨1, 1, 1⟩, ⟨0, 1, 1 + b⟩⟩),
    term_planar (q := ⟨⟨0, 0, 0⟩, ⟨1, 0, 0⟩, ⟨1, 0, 1⟩, ⟨0, 0, 1⟩⟩),
    term_planar (q := ⟨⟨0, 0, 0⟩, ⟨0, 1, a⟩, ⟨0, 1, 1 + b⟩, ⟨0, 0, 1⟩⟩),
    term_planar (q := ⟨⟨1, 0, 0⟩, ⟨1, 1, 0⟩, ⟨1, 1, 1⟩, ⟨1, 0, 1⟩⟩)]
  · simp [dot]
  all_goals simp [Planar, dot, cross]

/-- **The check adds up the six faces.**  A box two of whose faces are not planar, by any amount `h`, passes
if they are bent in opposite senses; a box whose faces are all planar up to `3 / 4 eps` can be refused. -/
theorem check_sum (eps h : ℝ) (he : 0 < eps) :
    (checkCoplanar eps [twisted (-h) h] = true ∧
      (h ≠ 0 → ¬ Planar ⟨⟨0, 0, 0⟩, ⟨1, 0, 0⟩, ⟨1, 1, 0⟩, ⟨0, 1, -h⟩⟩ ∧
        (⟨⟨0, 0, 0⟩, ⟨1, 0, 0⟩, ⟨1, 1, 0⟩, ⟨0, 1, -h⟩⟩ : Quad ℝ) ∈ pyPlanes (twisted (-h) h))) ∧
    checkCoplanar eps [twisted (3 / 4 * eps) (3 / 4 * eps)] = false := by
  refine ⟨⟨?_, fun hh => ⟨?_, ?_⟩⟩, ?_⟩
  · simp [checkCoplanar, twisted_sum, he]
  · simpa [Planar, dot, cross] using hh
  · exact mem_nth 0 rfl
  · simp only [checkCoplanar, twisted_sum, List.all_cons, List.all_nil, Bool.and_true,
      decide_eq_false_iff_not, not_lt]
    rw [abs_of_pos (by linarith)]; linarith

/-- What `box3d_overlap` returns. -/
theorem box3dOverlap_ok (eps : ℝ) (bs1 bs2 : List (Box ℝ)) (r : List (List (ℝ × ℝ))) :
    box3dOverlap eps bs1 bs2 = .ok r ↔
      (∀ b ∈ bs1 ++ bs2, |checkSum b| < eps ∧ ∀ t ∈ boxTris b, eps ≤ faceArea t) ∧
      r.length = bs1.length ∧
      ∀ (i : Nat) b1, bs1[i]? = some b1 → ∃ row, r[i]? = some row ∧ row.length = bs2.length ∧
        ∀ (j : Nat) b2, bs2[j]? = some b2 → row[j]? = some (overlap ops b1 b2) := by
  have hc : ∀ bs, checkCoplanar eps bs = true ↔ ∀ b ∈ bs, |checkSum b| < eps := by
    intro bs; simp [checkCoplanar]
  have hn : ∀ bs, checkNonzero eps bs = true ↔ ∀ b ∈ bs, ∀ t ∈ boxTris b, eps ≤ faceArea t := by
    intro bs; simp [checkNonzero]
  have hr : r = overlaps ops bs1 bs2 ↔ (r.length = bs1.length ∧
      ∀ (i : Nat) b1, bs1[i]? = some b1 → ∃ row, r[i]? = some row ∧ row.length = bs2.length ∧
        ∀ (j : Nat) b2, bs2[j]? = some b2 → row[j]? = some (overlap ops b1 b2)) := by
    constructor
    · rintro rfl
      refine ⟨by simp [overlaps], fun i b1 h1 => ⟨bs2.map fun b2 => overlap ops b1 b2, ?_, by simp, ?_⟩⟩
      · simp [overlaps, h1]
      · intro j b2 h2; simp [h2]
    · rintro ⟨hl, h⟩
      refine List.ext_getElem? fun i => ?_
      rcases hb : bs1[i]? with _ | b1
      · have : r[i]? = none := by
          rw [List.getElem?_eq_none_iff] at hb ⊢; omega
        simp [overlaps, hb, this]
      · obtain ⟨row, h1, h2, h3⟩ := h i b1 hb
        rw [h1]
        simp only [overlaps, List.getElem?_map, hb, Option.map_some, Option.some.injEq]
        refine List.ext_getElem? fun j => ?_
        rcases hb2 : bs2[j]? with _ | b2
        · have : row[j]? = none := by
            rw [List.getElem?_eq_none_iff] at hb2 ⊢; omega
          simp [hb2, this]
        · rw [h3 j b2 hb2]; simp [hb2]
  rw [← hr]
  unfold box3dOverlap
  rcases c1 : checkCoplanar eps bs1 with _ | _ <;> rcases c2 : checkCoplanar eps bs2 with _ | _ <;>
    rcases n1 : checkNonzero eps bs1 with _ | _ <;> rcases n2 : checkNonzero eps bs2 with _ | _ <;>
    simp only [Bool.not_false, Bool.not_true, Bool.or_true, Bool.or_false, if_true,
      Bool.false_eq_true, if_false, reduceCtorEq, false_iff, not_and, Except.ok.injEq]
  case true.true.true.true =>
    have q1 := (hc bs1).1 c1
    have q2 := (hc bs2).1 c2
    have q3 := (hn bs1).1 n1
    have q4 := (hn bs2).1 n2
    refine ⟨fun h => ⟨fun b hb => ?_, h.symm⟩, fun h => h.2.symm⟩
    rcases List.mem_append.1 hb with hb | hb
    · exact ⟨q1 b hb, q3 b hb⟩
    · exact ⟨q2 b hb, q4 b hb⟩
  all_goals
    intro h
    have q1 := (hc bs1).2 fun b hb => (h b (List.mem_append_left _ hb)).1
    have q2 := (hc bs2).2 fun b hb => (h b (List.mem_append_right _ hb)).1
    have q3 := (hn bs1).2 fun b hb => (h b (List.mem_append_left _ hb)).2
    have q4 := (hn bs2).2 fun b hb => (h b (List.mem_append_right _ hb)).2
    simp_all

/-! ### The normals of the CUDA code -/

noncomputable section

/-- `PlaneNormalDirection`, `iou_utils.cuh:220-245`. -/
def planeDirCuda (q : Quad ℝ) (center : V3 ℝ) : V3 ℝ :=
  direct center (planeCenter q) (planeNormalCuda q)

/-- `IsCoplanarTriTri`, `iou_utils.cuh:461-485`. -/
def coplanarTTCuda (t1 t2 : Tri ℝ) : Bool :=
  let n := unit (farthest (pairs t1.verts t2.verts))
  decide (|dot (triNormalCuda t1) (triNormalCuda t2)| > 1 - dEps) &&
    (decide (|dot n (triNormalCuda t1)| < dEps) || decide (|dot n (triNormalCuda t2)| < dEps))

/-- `IsCoplanarTriPlane`, `iou_utils.cuh:497-518`. -/
def coplanarTPCuda (t : Tri ℝ) (q : Quad ℝ) (normal : V3 ℝ) : Bool :=
  decide (|dot (triNormalCuda t) normal| > 1 - dEps) &&
    decide (|dot (unit (farthest (pairs t.verts q.verts))) normal| < dEps)

/-- The operations of the CUDA code; the others are the same as in the C++ code. -/
def opsCuda : Ops ℝ where
  dir := planeDirCuda
  edge := planeEdge
  cop := coplanarTPCuda
  tt := coplanarTTCuda
  big t := decide (faceArea t > aEps)

end

/-- Equal up to the sign. -/
def PM (u n : V3 ℝ) : Prop := n = u ∨ n = (-1 : ℝ) • u

theorem norm3_nonneg (v : V3 ℝ) : 0 ≤ norm3 v := Real.sqrt_nonneg _

theorem stepCuda {c C : V3 ℝ} {s : V3 ℝ × ℤ} {e : V3 ℝ × V3 ℝ}
    (hs : s.2 = -1 ∨ (PM (unit C) s.1 ∧ 0 ≤ s.2))
    (he : PM C (cross (e.1 - c) (e.2 - c)) ∨ (cross (e.1 - c) (e.2 - c) = 0 ∧ 0 ≤ s.2)) :
    PM (unit C) (normalStepCuda c s e).1 ∧ 0 ≤ (normalStepCuda c s e).2 := by
  have hpm : PM C (cross (e.1 - c) (e.2 - c)) → PM (unit C) (getNormal (e.1 - c) (e.2 - c)) := by
    rintro (h | h)
    · left; rw [getNormal, h]
    · right; rw [getNormal, h, unit_neg]
  have hneg : s.2 = -1 → norm3 (cross (e.1 - c) (e.2 - c)) > (s.2 : ℝ) := by
    intro h; rw [h]; have := norm3_nonneg (cross (e.1 - c) (e.2 - c)); push_cast; linarith
  rcases he with he | ⟨h0, h1⟩
  · by_cases hc : norm3 (cross (e.1 - c) (e.2 - c)) > (s.2 : ℝ)
    · rw [normalStepCuda, if_pos hc]
      exact ⟨hpm he, Int.floor_nonneg.2 (norm3_nonneg _)⟩
    · rw [normalStepCuda, if_neg hc]
      rcases hs with hs | hs
      · exact absurd (hneg hs) hc
      · exact hs
  · have hc : ¬ norm3 (cross (e.1 - c) (e.2 - c)) > (s.2 : ℝ) := by
      have h2 : (0 : ℝ) ≤ s.2 := by exact_mod_cast h1
      have h3 : norm3 (0 : V3 ℝ) = 0 := by rw [norm3]; simp [normSq, dot]
      rw [h0, h3, not_lt]; exact h2
    rw [normalStepCuda, if_neg hc]
    rcases hs with hs | hs
    · omega
    · exact hs

/-- The normal of a triangle on the GPU is the one on the CPU or its negative. -/
theorem triNormal_cuda (t : Tri ℝ) : PM (triNormal t) (triNormalCuda t) := by
  rw [triNormal_eq]
  have h := fun s (hs : s.2 = -1 ∨ (PM (unit (triCross t)) s.1 ∧ 0 ≤ s.2)) e he =>
    stepCuda (c := triCenter t) (C := triCross t) (s := s) (e := e) hs he
  have a := h (0, -1) (Or.inl rfl) (t.v0, t.v1) (Or.inl (Or.inl (by
    ext <;> simp [triCross, triCenter, cross] <;> ring)))
  have b := h _ (Or.inr a) (t.v0, t.v2) (Or.inl (Or.inr (by
    ext <;> simp [triCross, triCenter, cross] <;> ring)))
  exact (h _ (Or.inr b) (t.v1, t.v2) (Or.inl (Or.inl rfl))).1

/-- The normal of a parallelogram on the GPU is the one on the CPU or its negative. -/
theorem planeNormal_cuda (q : Quad ℝ) (hq : q.v0 + q.v2 = q.v1 + q.v3) :
    PM (planeNormal q) (planeNormalCuda q) := by
  rw [planeNormal_eq]
  obtain ⟨v0, v1, v2, v3⟩ := q
  have e0 : v0 = v1 + v3 - v2 := by
    have : v0 + v2 = v1 + v3 := hq
    ext
    · have := congrArg V3.x this; simp at this ⊢; linarith
    · have := congrArg V3.y this; simp at this ⊢; linarith
    · have := congrArg V3.z this; simp at this ⊢; linarith
  subst e0
  have h := fun s (hs : s.2 = -1 ∨ (PM (unit (planeCross ⟨v1 + v3 - v2, v1, v2, v3⟩)) s.1 ∧ 0 ≤ s.2)) e he =>
    stepCuda (c := planeCenter ⟨v1 + v3 - v2, v1, v2, v3⟩) (C := planeCross ⟨v1 + v3 - v2, v1, v2, v3⟩)
      (s := s) (e := e) hs he
  have s1 := h (0, -1) (Or.inl rfl) (v1 + v3 - v2, v1) (Or.inl (Or.inl (by
    ext <;> simp [planeCross, planeCenter, cross] <;> ring)))
  have s2 := h _ (Or.inr s1) (v1 + v3 - v2, v2) (Or.inr ⟨by
    ext <;> simp [planeCenter, cross] <;> ring, s1.2⟩)
  have s3 := h _ (Or.inr s2) (v1 + v3 - v2, v3) (Or.inl (Or.inr (by
    ext <;> simp [planeCross, planeCenter, cross] <;> ring)))
  have s4 := h _ (Or.inr s3) (v1, v2) (Or.inl (Or.inl (by
    ext <;> simp [planeCross, planeCenter, cross] <;> ring)))
  have s5 := h _ (Or.inr s4) (v1, v3) (Or.inr ⟨by
    ext <;> simp [planeCenter, cross] <;> ring, s4.2⟩)
  exact (h _ (Or.inr s5) (v2, v3) (Or.inl (Or.inl rfl))).1

theorem pm_dot_right {u n : V3 ℝ} (h : PM u n) (v : V3 ℝ) : |dot v n| = |dot v u| := by
  rcases h with rfl | rfl
  · rfl
  · rw [dot_smul, neg_one_mul, abs_neg]

theorem pm_dot_left {u n : V3 ℝ} (h : PM u n) (v : V3 ℝ) : |dot n v| = |dot u v| := by
  rw [dot_comm n, dot_comm u]; exact pm_dot_right h v

theorem copTT_cuda : coplanarTTCuda = coplanarTT := by
  funext t1 t2
  have h1 := triNormal_cuda t1
  have h2 := triNormal_cuda t2
  simp only [coplanarTTCuda, coplanarTT, pm_dot_right h1, pm_dot_right h2, pm_dot_left h1]

theorem copTP_cuda : coplanarTPCuda = coplanarTP := by
  funext t q n
  simp only [coplanarTPCuda, coplanarTP, pm_dot_left (triNormal_cuda t)]

theorem dir_cuda (q : Quad ℝ) (c : V3 ℝ) (hq : q.v0 + q.v2 = q.v1 + q.v3)
    (h0 : dot (c - planeCenter q) (planeNormal q) ≠ 0) : planeDirCuda q c = planeDir q c := by
  rw [planeDirCuda, planeDir]
  rcases planeNormal_cuda q hq with h | h
  · rw [h]
  · rw [h, direct, direct, dot_smul, neg_one_mul]
    have hs : (-1 : ℝ) • (-1 : ℝ) • planeNormal q = planeNormal q := by ext <;> simp
    rcases lt_or_gt_of_ne h0 with hl | hl
    · rw [if_neg (by linarith), if_pos hl]
    · rw [if_pos (by linarith), if_neg (by linarith), hs]

theorem boxIntersections_cuda (planes : List (Quad ℝ)) (c : V3 ℝ)
    (h : ∀ q ∈ planes, planeDirCuda q c = planeDir q c) (l : List (Tri ℝ)) :
    boxIntersections opsCuda l planes c = boxIntersections ops l planes c := by
  induction planes generalizing l with
  | nil => rfl
  | cons q ps ih =>
    have hq : cut opsCuda c l q = cut ops c l q := by
      have hd : opsCuda.dir q c = ops.dir q c := h q List.mem_cons_self
      have hc : ∀ t, clip opsCuda q (ops.dir q c) t = clip ops q (ops.dir q c) t := by
        intro t
        simp only [clip, show opsCuda.cop = ops.cop from copTP_cuda,
          show opsCuda.edge = ops.edge from rfl]
      simp only [cut, hd, funext hc]
    have := ih (fun q' hq' => h q' (List.mem_cons_of_mem _ hq')) (cut ops c l q)
    simp only [boxIntersections, List.foldl_cons] at this ⊢
    rw [hq]; exact this

theorem plane_ppd (o e1 e2 e3 : V3 ℝ) (hd : det3 e1 e2 e3 ≠ 0) :
    ∀ q ∈ boxPlanes (ppd o e1 e2 e3), q.v0 + q.v2 = q.v1 + q.v3 ∧
      dot (boxCenter (ppd o e1 e2 e3) - planeCenter q) (planeNormal q) ≠ 0 := by
  intro q hq
  have key : ∀ q : Quad ℝ, (dot (at3 o e1 e2 e3 (1/2) (1/2) (1/2) - planeCenter q) (planeCross q)
      = det3 e1 e2 e3 / 4 ∨ dot (at3 o e1 e2 e3 (1/2) (1/2) (1/2) - planeCenter q) (planeCross q)
      = -(det3 e1 e2 e3 / 4)) →
      dot (boxCenter (ppd o e1 e2 e3) - planeCenter q) (planeNormal q) ≠ 0 := by
    intro q h
    rw [boxCenter_ppd, planeNormal_eq, unit, dot_smul]
    have hk : (max (norm3 (planeCross q)) kEps)⁻¹ ≠ 0 :=
      inv_ne_zero (lt_of_lt_of_le (by norm_num [kEps]) (le_max_right _ _)).ne'
    refine mul_ne_zero hk ?_
    rcases h with h | h <;> rw [h]
    · exact div_ne_zero hd (by norm_num)
    · exact neg_ne_zero.2 (div_ne_zero hd (by norm_num))
  rw [boxPlanes_ppd] at hq
  simp only [List.mem_cons, List.not_mem_nil, or_false] at hq
  rcases hq with rfl | rfl | rfl | rfl | rfl | rfl
  all_goals
    refine ⟨by ext <;> simp <;> ring, key _ ?_⟩
    simp only [planeCenter, planeCross, dot, cross, det3, at3, add_x, add_y, add_z, sub_x, sub_y, sub_z,
      smul_x, smul_y, smul_z]
    first
      | (left; ring1)
      | (right; ring1)

/-- **The GPU gives the same result**, for boxes whose faces are parallelograms, although it truncates
`maxDist` to an integer. -/
theorem overlap_cuda (o e1 e2 e3 o' f1 f2 f3 : V3 ℝ) (hd : det3 e1 e2 e3 ≠ 0)
    (hd' : det3 f1 f2 f3 ≠ 0) :
    overlap opsCuda (ppd o e1 e2 e3) (ppd o' f1 f2 f3)
      = overlap ops (ppd o e1 e2 e3) (ppd o' f1 f2 f3) := by
  have h1 := fun l => boxIntersections_cuda (boxPlanes (ppd o e1 e2 e3)) (boxCenter (ppd o e1 e2 e3))
    (fun q hq => dir_cuda q _ (plane_ppd o e1 e2 e3 hd q hq).1 (plane_ppd o e1 e2 e3 hd q hq).2) l
  have h2 := fun l => boxIntersections_cuda (boxPlanes (ppd o' f1 f2 f3)) (boxCenter (ppd o' f1 f2 f3))
    (fun q hq => dir_cuda q _ (plane_ppd o' f1 f2 f3 hd' q hq).1 (plane_ppd o' f1 f2 f3 hd' q hq).2) l
  have hk : ∀ l1 l2 : List (Tri ℝ), keep opsCuda l1 l2 = keep ops l1 l2 := by
    intro l1 l2
    simp only [keep, show opsCuda.tt = ops.tt from copTT_cuda, show opsCuda.big = ops.big from rfl]
  have hs : shape opsCuda (ppd o e1 e2 e3) (ppd o' f1 f2 f3) = shape ops (ppd o e1 e2 e3) (ppd o' f1 f2 f3) := by
    simp only [shape, h1, h2, hk]
  simp only [overlap, hs]

/-! ### Examples -/

/-- A skewed box overlaps itself completely. -/
example : overlap (sq ℚ) (ppd ⟨1, 2, 3⟩ ⟨2, 0, 0⟩ ⟨1, 1, 0⟩ ⟨0, 1, 3⟩) (ppd ⟨1, 2, 3⟩ ⟨2, 0, 0⟩ ⟨1, 1, 0⟩ ⟨0, 1, 3⟩)
    = (6, 1) := by
  rw [self_sq _ _ _ _ (by decide +kernel) (by decide +kernel)]; decide +kernel

/-- A skewed box in a cube of side 10; the sides of the cube stay away from the box. -/
example : overlap (sq ℚ) (ppd ⟨2, 2, 3⟩ ⟨2, 0, 0⟩ ⟨1, 1, 0⟩ ⟨0, 1, 3⟩)
    (ppd ⟨0, 0, 0⟩ ⟨10, 0, 0⟩ ⟨0, 10, 0⟩ ⟨0, 0, 10⟩) = (6, 6 / 1000) := by
  have h := (nested_sq (K := ℚ) ⟨2, 2, 3⟩ ⟨2, 0, 0⟩ ⟨1, 1, 0⟩ ⟨0, 1, 3⟩ ⟨0, 0, 0⟩ ⟨10, 0, 0⟩ ⟨0, 10, 0⟩ ⟨0, 0, 10⟩
    (by decide +kernel) (by decide +kernel) (fun i =>
      ⟨(ppd ⟨2, 2, 3⟩ ⟨2, 0, 0⟩ ⟨1, 1, 0⟩ ⟨0, 1, 3⟩ i).x / 10,
        (ppd ⟨2, 2, 3⟩ ⟨2, 0, 0⟩ ⟨1, 1, 0⟩ ⟨0, 1, 3⟩ i).y / 10,
        (ppd ⟨2, 2, 3⟩ ⟨2, 0, 0⟩ ⟨1, 1, 0⟩ ⟨0, 1, 3⟩ i).z / 10, by
          revert i; decide +kernel⟩) (by decide +kernel)).1
  rw [h]; decide +kernel

/-- Two cubes without a common point. -/
example : overlap (sq ℚ) (ppd ⟨0, 0, 0⟩ ⟨1, 0, 0⟩ ⟨0, 1, 0⟩ ⟨0, 0, 1⟩)
    (ppd ⟨2, 3, 5⟩ ⟨1, 0, 0⟩ ⟨0, 1, 0⟩ ⟨0, 0, 1⟩) = (0, 0) := by
  refine disjoint_sq _ _ _ _ _ _ _ _ (by decide +kernel) (by decide +kernel) ?_ (by decide +kernel)
    (by decide +kernel)
  rintro p ⟨⟨x, y, z, hx, -, -, rfl⟩, ⟨x', y', z', hx', -, -, h⟩⟩
  have := congrArg V3.x h
  simp [at3] at this
  linarith [hx.2, hx'.1]

/-- Cubes that overlap in an eighth. -/
example : overlap (sq ℚ) (aabb ⟨0, 0, 0⟩ ⟨2, 2, 2⟩) (aabb ⟨1, 1, 1⟩ ⟨3, 3, 3⟩) = (1, 1 / 15) := by
  decide +kernel

example : checkCoplanar (1 / 10000) [twisted (-5) 5] = true := (check_sum _ 5 (by norm_num)).1.1

end P3D.IoU
