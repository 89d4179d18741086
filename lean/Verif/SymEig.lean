/-
Eigenvalues and eigenvectors of symmetric 3×3 matrices
(`pytorch3d/common/workaround/symeig3x3.py`), in exact real arithmetic.

The module is constructed with `eps = torch.finfo(torch.float).eps`; `eps` is a parameter of every
definition here, with `epsF` the value that `symeig3x3` uses.  A matrix of eigenvectors is given by
its three columns.
-/
import Mathlib.Analysis.SpecialFunctions.Trigonometric.Inverse
import Mathlib.Analysis.SpecialFunctions.Exp
import Mathlib.Analysis.SpecialFunctions.Trigonometric.Basic
import Mathlib.Analysis.SpecialFunctions.Sqrt
import Mathlib.Analysis.Matrix.Spectrum
import Verif.Mat3

set_option linter.unusedSectionVars false

namespace P3D.SymEig

open Real

noncomputable section

/-- `torch.finfo(torch.float).eps` (`symeig3x3.py:38`). -/
def epsF : ℝ := 1 / 2 ^ 23

/-- `symeig3x3.py:301-310` `_sign_without_zero`. -/
def sgn (x : ℝ) : ℝ := if 0 < x then 1 else -1

/-- `symeig3x3.py:80-82` the mean `q` of the diagonal. -/
def mean (A : M3 ℝ) : ℝ := (A.m00 + A.m11 + A.m22) / 3

/-- `symeig3x3.py:85-87` `p1`: half the sum of the squares outside the diagonal. -/
def offSq (A : M3 ℝ) : ℝ :=
  ((A.m00 ^ 2 + A.m01 ^ 2 + A.m02 ^ 2 + A.m10 ^ 2 + A.m11 ^ 2 + A.m12 ^ 2 + A.m20 ^ 2 + A.m21 ^ 2 + A.m22 ^ 2)
    - (A.m00 ^ 2 + A.m11 ^ 2 + A.m22 ^ 2)) / 2

/-- `symeig3x3.py:88-90` `p2`. -/
def spread (eps : ℝ) (A : M3 ℝ) : ℝ :=
  (A.m00 - mean A) ^ 2 + (A.m11 - mean A) ^ 2 + (A.m22 - mean A) ^ 2 + 2 * max (offSq A) eps

/-- `symeig3x3.py:92` `p`. -/
def scale (eps : ℝ) (A : M3 ℝ) : ℝ := √ (spread eps A / 6)

/-- `inputs - alpha * identity`. -/
def shift (A : M3 ℝ) (t : ℝ) : M3 ℝ :=
  ⟨A.m00 - t, A.m01, A.m02, A.m10, A.m11 - t, A.m12, A.m20, A.m21, A.m22 - t⟩

/-- `symeig3x3.py:94` `B`. -/
def normalised (eps : ℝ) (A : M3 ℝ) : M3 ℝ :=
  let S := shift A (mean A)
  let p := scale eps A
  ⟨S.m00 / p, S.m01 / p, S.m02 / p, S.m10 / p, S.m11 / p, S.m12 / p, S.m20 / p, S.m21 / p, S.m22 / p⟩

/-- `symeig3x3.py:96` `r` before it is clamped. -/
def halfDet (eps : ℝ) (A : M3 ℝ) : ℝ := (normalised eps A).det / 2

/-- `symeig3x3.py:98` `clamp(-1 + eps, 1 - eps)`. -/
def clampR (eps r : ℝ) : ℝ := min (max r (-1 + eps)) (1 - eps)

/-- `symeig3x3.py:100` `phi`. -/
def phi (eps : ℝ) (A : M3 ℝ) : ℝ := arccos (clampR eps (halfDet eps A)) / 3

/-- `symeig3x3.py:101-105` `(eig2, eig3, eig1)`. -/
def trig (eps : ℝ) (A : M3 ℝ) : V3 ℝ :=
  let e1 := mean A + 2 * scale eps A * cos (phi eps A)
  let e2 := mean A + 2 * scale eps A * cos (phi eps A + 2 * π / 3)
  ⟨e2, 3 * mean A - e1 - e2, e1⟩

/-- `symeig3x3.py:110-112` `diag_soft_cond`. -/
def soft (eps : ℝ) (A : M3 ℝ) : ℝ := exp (-((offSq A / (6 * eps)) ^ 2))

/-- `symeig3x3.py:115` `torch.sort` of three numbers. -/
def sort3 (v : V3 ℝ) : V3 ℝ :=
  ⟨min (min v.x v.y) v.z, max (min v.x v.y) (min (max v.x v.y) v.z), max (max v.x v.y) v.z⟩

def diag (A : M3 ℝ) : V3 ℝ := ⟨A.m00, A.m11, A.m22⟩

/-- `symeig3x3.py:116` the eigenvalues that are returned. -/
def eigvals (eps : ℝ) (A : M3 ℝ) : V3 ℝ :=
  soft eps A • sort3 (diag A) + (1 - soft eps A) • trig eps A

/-- The sign pattern by which the cross products are regularised, `symeig3x3.py:209-211`. -/
def signs (r : V3 ℝ) : V3 ℝ := ⟨sgn r.x, sgn r.y, sgn r.z⟩

/-- `symeig3x3.py:203-211` the three regularised cross products; all three get the signs of the first. -/
def crosses (eps : ℝ) (C : M3 ℝ) : V3 ℝ × V3 ℝ × V3 ℝ :=
  let r01 := V3.cross C.row0 C.row1
  let s := eps • signs r01
  (r01 + s, V3.cross C.row1 C.row2 + s, V3.cross C.row0 C.row2 + s)

/-- `symeig3x3.py:213-219` the first longest of three vectors (`argmax`). -/
def longest (c : V3 ℝ × V3 ℝ × V3 ℝ) : V3 ℝ :=
  if V3.normSq c.2.1 ≤ V3.normSq c.1 ∧ V3.normSq c.2.2 ≤ V3.normSq c.1 then c.1
  else if V3.normSq c.2.2 ≤ V3.normSq c.2.1 then c.2.1
  else c.2.2

/-- `symeig3x3.py:191-224` `_get_ev0`. -/
def ev0 (eps : ℝ) (C : M3 ℝ) : V3 ℝ :=
  let c := longest (crosses eps C)
  (1 / √ (V3.normSq c)) • c

/-- `torch.nn.functional.normalize`, its default `eps`. -/
def normalize3 (v : V3 ℝ) : V3 ℝ := (1 / max (√ (V3.normSq v)) (1 / 10 ^ 12)) • v

/-- `symeig3x3.py:258-262`, `:41-60` `w` turned by a right angle about the axis of its smallest
component (`argmin`, first of equals). -/
def turned (w : V3 ℝ) : V3 ℝ :=
  if |w.x| ≤ |w.y| ∧ |w.x| ≤ |w.z| then ⟨0, -w.z, w.y⟩
  else if |w.y| ≤ |w.z| then ⟨-w.z, 0, w.x⟩
  else ⟨-w.y, w.x, 0⟩

/-- `symeig3x3.py:246-264` `_get_uv`. -/
def getUV (w : V3 ℝ) : V3 ℝ × V3 ℝ :=
  let u := normalize3 (turned w)
  (u, V3.cross w u)

/-- `symeig3x3.py:283-294` the regularised `rowspace`. -/
def rowspace (eps : ℝ) (C : M3 ℝ) (u v : V3 ℝ) : ℝ × ℝ :=
  let m00 := V3.dot u (C.mulVec u)
  let m01 := V3.dot u (C.mulVec v)
  let m10 := V3.dot v (C.mulVec u)
  let m11 := V3.dot v (C.mulVec v)
  let s := sgn (m00 * m10 + m01 * m11)
  let a := m00 + s * m10
  let b := m01 + s * m11
  (a + eps * sgn a, b + eps * sgn a)

/-- `symeig3x3.py:266-299` `_get_ev1`: `rowspace @ [[0, -1], [1, 0]]`, normalised, in the basis `u, v`. -/
def ev1 (eps : ℝ) (C : M3 ℝ) (u v : V3 ℝ) : V3 ℝ :=
  let r := rowspace eps C u v
  let n := 1 / max (√ (r.2 ^ 2 + (-r.1) ^ 2)) (1 / 10 ^ 12)
  (n * r.2) • u + (n * -r.1) • v

/-- `symeig3x3.py:161-189` `_construct_eigenvecs`. -/
def construct (eps : ℝ) (A : M3 ℝ) (a0 a1 : ℝ) : V3 ℝ × V3 ℝ × V3 ℝ :=
  let w := ev0 eps (shift A a0)
  let uv := getUV w
  let w1 := ev1 eps (shift A a1) uv.1 uv.2
  (w, w1, V3.cross w w1)

/-- `symeig3x3.py:125-159` `_construct_eigenvecs_set`: the columns of the matrix of eigenvectors. -/
def eigvecs (eps : ℝ) (A : M3 ℝ) (l : V3 ℝ) : V3 ℝ × V3 ℝ × V3 ℝ :=
  if l.y - l.x > l.z - l.y then construct eps A l.x l.y
  else
    let e := construct eps A l.z l.y
    (e.2.2, e.2.1, e.1)

/-- `symeig3x3.py:62-123` `forward` for one matrix. -/
def forward (eps : ℝ) (A : M3 ℝ) : V3 ℝ × (V3 ℝ × V3 ℝ × V3 ℝ) :=
  (eigvals eps A, eigvecs eps A (eigvals eps A))

/-- `symeig3x3.py:313-328` `symeig3x3`. -/
def symeig3x3 (A : M3 ℝ) : V3 ℝ × (V3 ℝ × V3 ℝ × V3 ℝ) := forward epsF A

/-! ## Specification -/

/-- Symmetric matrices, the inputs the function is for. -/
def Sym (A : M3 ℝ) : Prop := A.m10 = A.m01 ∧ A.m20 = A.m02 ∧ A.m21 = A.m12

/-- Three unit vectors that are orthogonal to each other. -/
structure Ortho (c : V3 ℝ × V3 ℝ × V3 ℝ) : Prop where
  n0 : V3.normSq c.1 = 1
  n1 : V3.normSq c.2.1 = 1
  n2 : V3.normSq c.2.2 = 1
  d01 : V3.dot c.1 c.2.1 = 0
  d02 : V3.dot c.1 c.2.2 = 0
  d12 : V3.dot c.2.1 c.2.2 = 0

/-- The determinant of the matrix with these columns. -/
def colDet (c : V3 ℝ × V3 ℝ × V3 ℝ) : ℝ := V3.dot c.1 (V3.cross c.2.1 c.2.2)

/-! ## Orthonormal frames -/

theorem sgn_sq (x : ℝ) : sgn x ^ 2 = 1 := by unfold sgn; split <;> norm_num

theorem sgn_mul (x : ℝ) : x * sgn x = |x| := by
  unfold sgn; split
  · rw [abs_of_pos ‹_›, mul_one]
  · rw [abs_of_nonpos (not_lt.mp ‹_›)]; ring

/-- Adding `eps` with the sign of a number makes it at least `eps` in size. -/
theorem reg_sq (eps x : ℝ) : (x + eps * sgn x) ^ 2 = (|x| + eps) ^ 2 := by
  have h1 := sgn_sq x
  have h2 := sgn_mul x
  have h3 := sq_abs x
  linear_combination eps ^ 2 * h1 + 2 * eps * h2 - h3

theorem longest_mem (c : V3 ℝ × V3 ℝ × V3 ℝ) : V3.normSq c.1 ≤ V3.normSq (longest c) ∧
    V3.normSq c.2.1 ≤ V3.normSq (longest c) ∧ V3.normSq c.2.2 ≤ V3.normSq (longest c) ∧
    (longest c = c.1 ∨ longest c = c.2.1 ∨ longest c = c.2.2) := by
  unfold longest
  split
  · rename_i h; exact ⟨le_rfl, h.1, h.2, .inl rfl⟩
  · rename_i h
    rw [not_and_or, not_le, not_le] at h
    split
    · rename_i h2
      refine ⟨?_, le_rfl, h2, .inr (.inl rfl)⟩
      rcases h with h | h
      · exact h.le
      · exact h.le.trans h2
    · rename_i h2
      rw [not_le] at h2
      refine ⟨?_, h2.le, le_rfl, .inr (.inr rfl)⟩
      rcases h with h | h
      · exact h.le.trans h2.le
      · exact h.le

theorem normSq_reg (eps : ℝ) (r : V3 ℝ) :
    V3.normSq (r + eps • signs r) = (|r.x| + eps) ^ 2 + (|r.y| + eps) ^ 2 + (|r.z| + eps) ^ 2 := by
  rw [← reg_sq, ← reg_sq, ← reg_sq]
  simp only [V3.normSq, V3.dot, V3.add_x, V3.add_y, V3.add_z, V3.smul_x, V3.smul_y, V3.smul_z, signs]
  ring

theorem longest_pos {eps : ℝ} (he : 0 < eps) (C : M3 ℝ) : 0 < V3.normSq (longest (crosses eps C)) := by
  refine lt_of_lt_of_le ?_ (longest_mem (crosses eps C)).1
  simp only [crosses]
  rw [normSq_reg]
  positivity

theorem normSq_nonneg (v : V3 ℝ) : 0 ≤ V3.normSq v := by
  simp only [V3.normSq, V3.dot]; nlinarith [mul_self_nonneg v.x, mul_self_nonneg v.y, mul_self_nonneg v.z]

theorem unit_of_pos {v : V3 ℝ} (h : 0 < V3.normSq v) : V3.normSq ((1 / √ (V3.normSq v)) • v) = 1 := by
  rw [V3.normSq_smul, div_pow, one_pow, sq_sqrt h.le]
  field_simp

theorem ev0_unit {eps : ℝ} (he : 0 < eps) (C : M3 ℝ) : V3.normSq (ev0 eps C) = 1 :=
  unit_of_pos (longest_pos he C)

theorem turned_dot (w : V3 ℝ) : V3.dot w (turned w) = 0 := by
  unfold turned; split
  · simp [V3.dot]; ring
  · split <;> simp [V3.dot] <;> ring

theorem turned_norm (w : V3 ℝ) (h : V3.normSq w = 1) : 2 / 3 ≤ V3.normSq (turned w) := by
  have key : ∀ a b : ℝ, |a| ≤ |b| → a * a ≤ b * b := fun a b h => by
    have := sq_le_sq' (by linarith [abs_nonneg a, abs_nonneg b]) h
    rw [sq_abs, sq_abs] at this; nlinarith
  simp only [V3.normSq, V3.dot] at h
  unfold turned; split
  · rename_i hc
    have := key _ _ hc.1; have := key _ _ hc.2
    simp only [V3.normSq, V3.dot]; nlinarith
  · rename_i hc
    rw [not_and_or, not_le, not_le] at hc
    split
    · rename_i h2
      have a1 := key _ _ h2
      have a2 : w.y * w.y ≤ w.x * w.x := by
        rcases hc with hc | hc
        · exact key _ _ hc.le
        · exact key _ _ (h2.trans hc.le)
      simp only [V3.normSq, V3.dot]; nlinarith
    · rename_i h2
      rw [not_le] at h2
      have a1 := key _ _ h2.le
      have a2 : w.z * w.z ≤ w.x * w.x := by
        rcases hc with hc | hc
        · exact key _ _ (h2.le.trans hc.le)
        · exact key _ _ hc.le
      simp only [V3.normSq, V3.dot]; nlinarith

theorem normalize3_unit {v : V3 ℝ} (h : 1 / 10 ^ 24 ≤ V3.normSq v) : V3.normSq (normalize3 v) = 1 := by
  unfold normalize3
  have : (1 / 10 ^ 12 : ℝ) ≤ √ (V3.normSq v) := by
    apply le_sqrt_of_sq_le
    refine le_trans ?_ h
    norm_num
  rw [max_eq_left this]
  exact unit_of_pos (lt_of_lt_of_le (by norm_num) h)

theorem uv_spec {w : V3 ℝ} (h : V3.normSq w = 1) : V3.normSq (getUV w).1 = 1 ∧ V3.normSq (getUV w).2 = 1 ∧
    V3.dot w (getUV w).1 = 0 ∧ V3.dot w (getUV w).2 = 0 ∧ V3.dot (getUV w).1 (getUV w).2 = 0 := by
  have hu : V3.normSq (normalize3 (turned w)) = 1 := normalize3_unit (le_trans (by norm_num) (turned_norm w h))
  have hd : V3.dot w (normalize3 (turned w)) = 0 := by
    unfold normalize3; rw [V3.dot_smul, turned_dot, mul_zero]
  refine ⟨hu, ?_, hd, V3.dot_cross_left _ _, V3.dot_cross_right _ _⟩
  simp only [getUV]
  revert h hu hd
  generalize normalize3 (turned w) = u
  intro h hu hd
  simp only [V3.normSq, V3.dot, V3.cross] at *
  linear_combination (w.x * w.x + w.y * w.y + w.z * w.z) * hu + h - (w.x * u.x + w.y * u.y + w.z * u.z) * hd

theorem ev1_spec {eps : ℝ} (he : 1 / 10 ^ 12 ≤ eps) (C : M3 ℝ) {w u v : V3 ℝ} (hu : V3.normSq u = 1)
    (hv : V3.normSq v = 1) (huv : V3.dot u v = 0) (hwu : V3.dot w u = 0) (hwv : V3.dot w v = 0) :
    V3.normSq (ev1 eps C u v) = 1 ∧ V3.dot w (ev1 eps C u v) = 0 := by
  have hpos : (0 : ℝ) < 1 / 10 ^ 12 := by norm_num
  constructor
  · simp only [ev1]
    have h1 : eps ^ 2 ≤ (rowspace eps C u v).1 ^ 2 := by
      simp only [rowspace]
      rw [reg_sq]
      refine pow_le_pow_left₀ (hpos.le.trans he) ?_ 2
      linarith [abs_nonneg (V3.dot u (C.mulVec u) + sgn (V3.dot u (C.mulVec u) * V3.dot v (C.mulVec u) +
        V3.dot u (C.mulVec v) * V3.dot v (C.mulVec v)) * V3.dot v (C.mulVec u))]
    generalize rowspace eps C u v = r at h1
    have h2 : eps ^ 2 ≤ r.2 ^ 2 + (-r.1) ^ 2 := by nlinarith [sq_nonneg r.2]
    have h3 : (1 / 10 ^ 12 : ℝ) ≤ √ (r.2 ^ 2 + (-r.1) ^ 2) := he.trans (le_sqrt_of_sq_le h2)
    rw [max_eq_left h3]
    have hq : 0 < r.2 ^ 2 + (-r.1) ^ 2 := lt_of_lt_of_le (by positivity) h2
    have h4 := sq_sqrt hq.le
    have h5 : 0 < √ (r.2 ^ 2 + (-r.1) ^ 2) := sqrt_pos.mpr hq
    generalize √ (r.2 ^ 2 + (-r.1) ^ 2) = q at h4 h5
    have : V3.normSq ((1 / q * r.2) • u + (1 / q * -r.1) • v) =
        (1 / q * r.2) ^ 2 * V3.normSq u + (1 / q * -r.1) ^ 2 * V3.normSq v + 2 * (1 / q * r.2) * (1 / q * -r.1) * V3.dot u v := by
      simp only [V3.normSq, V3.dot, V3.add_x, V3.add_y, V3.add_z, V3.smul_x, V3.smul_y, V3.smul_z]; ring
    rw [this, hu, hv, huv]
    field_simp
    linarith
  · simp only [ev1, V3.dot_add, V3.dot_smul, hwu, hwv]; ring

theorem cross_ortho {w w1 : V3 ℝ} (h : V3.normSq w = 1) (h1 : V3.normSq w1 = 1) (hd : V3.dot w w1 = 0) :
    Ortho (w, w1, V3.cross w w1) ∧ colDet (w, w1, V3.cross w w1) = 1 := by
  refine ⟨⟨h, h1, ?_, hd, V3.dot_cross_left _ _, V3.dot_cross_right _ _⟩, ?_⟩
  · simp only [V3.normSq, V3.dot, V3.cross] at *
    linear_combination (w.x * w.x + w.y * w.y + w.z * w.z) * h1 + h - (w.x * w1.x + w.y * w1.y + w.z * w1.z) * hd
  · simp only [colDet, V3.normSq, V3.dot, V3.cross] at *
    linear_combination (w.x * w.x + w.y * w.y + w.z * w.z) * h1 + h - (w.x * w1.x + w.y * w1.y + w.z * w1.z) * hd

/-- `_construct_eigenvecs` returns a right-handed orthonormal frame whatever the matrix and the
eigenvalues are. -/
theorem construct_ortho {eps : ℝ} (he : 1 / 10 ^ 12 ≤ eps) (A : M3 ℝ) (a0 a1 : ℝ) :
    Ortho (construct eps A a0 a1) ∧ colDet (construct eps A a0 a1) = 1 := by
  have hpos : 0 < eps := lt_of_lt_of_le (by norm_num) he
  have h0 := ev0_unit hpos (shift A a0)
  obtain ⟨hu, hv, hwu, hwv, huv⟩ := uv_spec h0
  obtain ⟨h1, hd⟩ := ev1_spec he (shift A a1) hu hv huv hwu hwv
  exact cross_ortho h0 h1 hd

/-- **Frames.** The three columns are orthonormal for every real matrix; the frame is right-handed when
the lower gap between the eigenvalues is the larger one and left-handed otherwise. -/
theorem eigvecs_ortho {eps : ℝ} (he : 1 / 10 ^ 12 ≤ eps) (A : M3 ℝ) :
    Ortho (forward eps A).2 ∧ colDet (forward eps A).2 =
      if (forward eps A).1.y - (forward eps A).1.x > (forward eps A).1.z - (forward eps A).1.y then 1 else -1 := by
  simp only [forward, eigvecs]
  split
  · exact construct_ortho he _ _ _
  · obtain ⟨h, hd⟩ := construct_ortho he A (eigvals eps A).z (eigvals eps A).y
    refine ⟨⟨h.n2, h.n1, h.n0, ?_, ?_, ?_⟩, ?_⟩
    · rw [V3.dot_comm]; exact h.d12
    · rw [V3.dot_comm]; exact h.d02
    · rw [V3.dot_comm]; exact h.d01
    · rw [← hd]
      simp only [colDet, V3.dot, V3.cross]; ring

/-! ## Eigenvalues -/

theorem sort3_spec (v : V3 ℝ) : (sort3 v).x ≤ (sort3 v).y ∧ (sort3 v).y ≤ (sort3 v).z ∧
    [(sort3 v).x, (sort3 v).y, (sort3 v).z].Perm [v.x, v.y, v.z] := by
  have p1 : ∀ a b c : ℝ, [b, a, c].Perm [a, b, c] := fun a b c => .swap _ _ _
  have p2 : ∀ a b c : ℝ, [a, c, b].Perm [a, b, c] := fun a b c => .cons _ (.swap _ _ _)
  have p3 : ∀ a b c : ℝ, [c, a, b].Perm [a, b, c] := fun a b c => (p1 _ _ _).trans (p2 _ _ _)
  have p4 : ∀ a b c : ℝ, [b, c, a].Perm [a, b, c] := fun a b c => (p2 _ _ _).trans (p1 _ _ _)
  have p5 : ∀ a b c : ℝ, [c, b, a].Perm [a, b, c] := fun a b c => (p2 _ _ _).trans (p3 _ _ _)
  simp only [sort3, min_def, max_def]
  split_ifs
  all_goals
    refine ⟨by linarith, by linarith, ?_⟩
    first
    | exact .refl _
    | exact p1 _ _ _
    | exact p2 _ _ _
    | exact p3 _ _ _
    | exact p4 _ _ _
    | exact p5 _ _ _
    | (exfalso; linarith)

theorem phi_range (eps : ℝ) (A : M3 ℝ) : 0 ≤ phi eps A ∧ phi eps A ≤ π / 3 := by
  unfold phi
  constructor
  · have := arccos_nonneg (clampR eps (halfDet eps A)); positivity
  · have := arccos_le_pi (clampR eps (halfDet eps A)); linarith

/-- The middle eigenvalue, written with the third angle. -/
theorem trig_mid (eps : ℝ) (A : M3 ℝ) :
    (trig eps A).y = mean A + 2 * scale eps A * cos (phi eps A - 2 * π / 3) := by
  simp only [trig]
  rw [cos_add, cos_sub]
  have : cos (2 * π / 3) = -(1 / 2) := by
    rw [show 2 * π / 3 = π - π / 3 by ring, cos_pi_sub, cos_pi_div_three]
  rw [this]; ring

theorem trig_sorted (eps : ℝ) (A : M3 ℝ) : (trig eps A).x ≤ (trig eps A).y ∧ (trig eps A).y ≤ (trig eps A).z := by
  obtain ⟨h0, h1⟩ := phi_range eps A
  have hs : 0 ≤ scale eps A := sqrt_nonneg _
  have hp := pi_pos
  rw [trig_mid]
  constructor
  · simp only [trig]
    have : cos (phi eps A + 2 * π / 3) ≤ cos (phi eps A - 2 * π / 3) := by
      rw [← cos_neg (phi eps A - 2 * π / 3)]
      apply cos_le_cos_of_nonneg_of_le_pi <;> linarith
    nlinarith
  · simp only [trig]
    have : cos (phi eps A - 2 * π / 3) ≤ cos (phi eps A) := by
      rw [← cos_neg (phi eps A - 2 * π / 3)]
      apply cos_le_cos_of_nonneg_of_le_pi <;> linarith
    nlinarith

theorem soft_range (eps : ℝ) (A : M3 ℝ) : 0 < soft eps A ∧ soft eps A ≤ 1 :=
  ⟨exp_pos _, exp_le_one_iff.mpr (by nlinarith [sq_nonneg (offSq A / (6 * eps))])⟩

/-- **Ascending order**, for every matrix. -/
theorem eigvals_sorted (eps : ℝ) (A : M3 ℝ) :
    (forward eps A).1.x ≤ (forward eps A).1.y ∧ (forward eps A).1.y ≤ (forward eps A).1.z := by
  obtain ⟨a1, a2, -⟩ := sort3_spec (diag A)
  obtain ⟨b1, b2⟩ := trig_sorted eps A
  obtain ⟨c1, c2⟩ := soft_range eps A
  simp only [forward, eigvals, V3.add_x, V3.add_y, V3.add_z, V3.smul_x, V3.smul_y, V3.smul_z]
  constructor <;> nlinarith

/-- **The eigenvalues add up to the trace**, for every matrix. -/
theorem eigvals_sum (eps : ℝ) (A : M3 ℝ) :
    (forward eps A).1.x + (forward eps A).1.y + (forward eps A).1.z = A.trace := by
  have h1 : (sort3 (diag A)).x + (sort3 (diag A)).y + (sort3 (diag A)).z = A.trace := by
    have := (sort3_spec (diag A)).2.2.sum_eq
    simp only [List.sum_cons, List.sum_nil, diag] at this
    simp only [M3.trace, diag]; linarith
  have h2 : (trig eps A).x + (trig eps A).y + (trig eps A).z = A.trace := by
    simp only [trig, mean, M3.trace]; ring
  simp only [forward, eigvals, V3.add_x, V3.add_y, V3.add_z, V3.smul_x, V3.smul_y, V3.smul_z]
  linear_combination soft eps A * h1 + (1 - soft eps A) * h2

/-- **Diagonal matrices** are handled exactly: the eigenvalues are the sorted diagonal. -/
theorem eigvals_diag (eps : ℝ) {A : M3 ℝ} (h : offSq A = 0) : (forward eps A).1 = sort3 (diag A) := by
  have : soft eps A = 1 := by simp [soft, h]
  simp only [forward, eigvals, this]
  ext <;> simp

/-! ### The trigonometric formula -/

theorem offSq_nonneg (A : M3 ℝ) : 0 ≤ offSq A := by unfold offSq; nlinarith [sq_nonneg A.m01, sq_nonneg A.m02, sq_nonneg A.m10, sq_nonneg A.m12, sq_nonneg A.m20, sq_nonneg A.m21]

theorem spread_pos {eps : ℝ} (he : 0 < eps) (A : M3 ℝ) : 0 < spread eps A := by
  unfold spread
  have := lt_of_lt_of_le he (le_max_right (offSq A) eps)
  positivity

theorem scale_pos {eps : ℝ} (he : 0 < eps) (A : M3 ℝ) : 0 < scale eps A :=
  sqrt_pos.mpr (by have := spread_pos he A; positivity)

theorem scale_sq {eps : ℝ} (he : 0 < eps) (A : M3 ℝ) : 6 * scale eps A ^ 2 = spread eps A := by
  unfold scale; rw [sq_sqrt (by have := spread_pos he A; positivity)]; ring

/-- The determinant of `A - mean` in terms of `halfDet`. -/
theorem det_shift_mean {eps : ℝ} (he : 0 < eps) (A : M3 ℝ) :
    (shift A (mean A)).det = 2 * scale eps A ^ 3 * halfDet eps A := by
  have := (scale_pos he A).ne'
  simp only [halfDet, normalised, M3.det]
  generalize scale eps A = p at *
  field_simp

theorem cos_triple (c t : ℝ) (h : c = cos t) : 4 * c ^ 3 - 3 * c = cos (3 * t) := by
  rw [h, cos_three_mul]

/-- **Characteristic polynomial.** For a symmetric matrix that is not nearly diagonal, the values of the
trigonometric formula are the roots of the characteristic polynomial up to the effect of the clamp on
`r`. -/
theorem trig_charpoly {eps : ℝ} (he : 0 < eps) (he1 : eps ≤ 1) {A : M3 ℝ} (hs : Sym A) (ho : eps ≤ offSq A) (t : ℝ) :
    (shift A t).det = ((trig eps A).x - t) * ((trig eps A).y - t) * ((trig eps A).z - t)
      + 2 * scale eps A ^ 3 * (halfDet eps A - clampR eps (halfDet eps A)) := by
  obtain ⟨s1, s2, s3⟩ := hs
  have hsq := scale_sq he A
  rw [spread, max_eq_left ho] at hsq
  have hdet := det_shift_mean he A
  have hc : cos (3 * phi eps A) = clampR eps (halfDet eps A) := by
    unfold phi
    rw [mul_div_cancel₀ _ (by norm_num : (3 : ℝ) ≠ 0)]
    apply cos_arccos <;> unfold clampR
    · rw [le_min_iff]; exact ⟨(by linarith : (-1 : ℝ) ≤ -1 + eps).trans (le_max_right _ _), by linarith⟩
    · exact (min_le_right _ _).trans (by linarith)
  rw [cos_three_mul] at hc
  have c3 : cos (2 * π / 3) = -(1 / 2) := by
    rw [show 2 * π / 3 = π - π / 3 by ring, cos_pi_sub, cos_pi_div_three]
  have s3' : sin (2 * π / 3) ^ 2 = 3 / 4 := by
    have := sin_sq_add_cos_sq (2 * π / 3); rw [c3] at this; linarith
  have hsc := sin_sq_add_cos_sq (phi eps A)
  simp only [trig, cos_add, c3]
  generalize clampR eps (halfDet eps A) = rc at *
  generalize halfDet eps A = r at *
  generalize scale eps A = p at *
  generalize cos (phi eps A) = c at *
  generalize sin (phi eps A) = s at *
  generalize sin (2 * π / 3) = k at *
  have hsk : 4 * (s * k) ^ 2 = 3 * (1 - c ^ 2) := by rw [mul_pow, s3']; linear_combination 3 * hsc
  have e1 : (shift A t).det = -(t - mean A) ^ 3 + 3 * p ^ 2 * (t - mean A) + 2 * p ^ 3 * r := by
    rw [← hdet]
    simp only [shift, M3.det, mean, offSq, s1, s2, s3] at hsq ⊢
    linear_combination (-(t - (A.m00 + A.m11 + A.m22) / 3) / 2) * hsq
  rw [e1]
  generalize mean A = q
  linear_combination (2 * p * c - (t - q)) * p ^ 2 * hsk - 2 * p ^ 3 * hc

/-! ### The clamp matters only near double eigenvalues -/

/-- The sum of all squared entries. -/
def sqSum (A : M3 ℝ) : ℝ :=
  A.m00 ^ 2 + A.m01 ^ 2 + A.m02 ^ 2 + A.m10 ^ 2 + A.m11 ^ 2 + A.m12 ^ 2 + A.m20 ^ 2 + A.m21 ^ 2 + A.m22 ^ 2

/-- A symmetric matrix has three real eigenvalues. -/
theorem real_roots {S : M3 ℝ} (hs : Sym S) :
    ∃ a b c : ℝ, ∀ t, (shift S t).det = (a - t) * (b - t) * (c - t) := by
  obtain ⟨s1, s2, s3⟩ := hs
  set M : Matrix (Fin 3) (Fin 3) ℝ := !![S.m00, S.m01, S.m02; S.m10, S.m11, S.m12; S.m20, S.m21, S.m22] with hM
  have hH : M.IsHermitian := by
    ext i j
    fin_cases i <;> fin_cases j <;> simp [hM, s1, s2, s3]
  refine ⟨hH.eigenvalues 0, hH.eigenvalues 1, hH.eigenvalues 2, fun t => ?_⟩
  have h := congrArg (Polynomial.eval t) hH.charpoly_eq
  rw [Matrix.eval_charpoly, Polynomial.eval_prod, Fin.prod_univ_three, Matrix.det_fin_three] at h
  simp [hM] at h
  simp only [shift, M3.det]
  linear_combination -h

/-- The discriminant of the characteristic polynomial of a symmetric matrix of trace zero. -/
theorem disc_eq {S : M3 ℝ} (hs : Sym S) (ht : S.trace = 0) {a b c : ℝ}
    (h : ∀ t, (shift S t).det = (a - t) * (b - t) * (c - t)) :
    ((a - b) * (b - c) * (c - a)) ^ 2 = 108 * (sqSum S / 6) ^ 3 - 27 * S.det ^ 2 := by
  obtain ⟨s1, s2, s3⟩ := hs
  have h0 := h 0
  have h1 := h 1
  have h2 := h (-1)
  simp only [shift, M3.det, M3.trace, sqSum, s1, s2, s3] at *
  have e1 : a + b + c = 0 := by linarith
  have e2 : a * b + b * c + c * a = -(S.m00 ^ 2 + S.m01 ^ 2 + S.m02 ^ 2 + S.m01 ^ 2 + S.m11 ^ 2 + S.m12 ^ 2 + S.m02 ^ 2 + S.m12 ^ 2 + S.m22 ^ 2) / 2 := by
    have : S.m22 = -S.m00 - S.m11 := by linarith
    rw [this] at h1 h2 ⊢
    nlinarith
  have e3 : (S.m00 * (S.m11 * S.m22 - S.m12 * S.m12) - S.m01 * (S.m01 * S.m22 - S.m12 * S.m02) +
      S.m02 * (S.m01 * S.m12 - S.m11 * S.m02)) = a * b * c := by linear_combination h0
  generalize S.m00 ^ 2 + S.m01 ^ 2 + S.m02 ^ 2 + S.m01 ^ 2 + S.m11 ^ 2 + S.m12 ^ 2 + S.m02 ^ 2 + S.m12 ^ 2 + S.m22 ^ 2 = Q at *
  rw [e3]
  have hQ : Q = -2 * (a * b + b * c + c * a) := by linarith
  have hc : c = -a - b := by linarith
  rw [hQ, hc]; ring

theorem det_bound {S : M3 ℝ} (hs : Sym S) (ht : S.trace = 0) : S.det ^ 2 ≤ 4 * (sqSum S / 6) ^ 3 := by
  obtain ⟨a, b, c, h⟩ := real_roots hs
  have := disc_eq hs ht h
  nlinarith [sq_nonneg ((a - b) * (b - c) * (c - a))]

theorem shift_sym {A : M3 ℝ} (hs : Sym A) (t : ℝ) : Sym (shift A t) := hs

theorem shift_mean_trace (A : M3 ℝ) : (shift A (mean A)).trace = 0 := by
  simp only [M3.trace, shift, mean]; ring

theorem sqSum_shift (A : M3 ℝ) : sqSum (shift A (mean A)) =
    (A.m00 - mean A) ^ 2 + (A.m11 - mean A) ^ 2 + (A.m22 - mean A) ^ 2 + 2 * offSq A := by
  simp only [sqSum, shift, offSq]; ring

/-- `r` lies in `[-1, 1]` in exact arithmetic for every symmetric matrix. -/
theorem halfDet_le {eps : ℝ} (he : 0 < eps) {A : M3 ℝ} (hs : Sym A) : |halfDet eps A| ≤ 1 := by
  have h1 := det_bound (shift_sym hs (mean A)) (shift_mean_trace A)
  rw [det_shift_mean he] at h1
  have h2 : sqSum (shift A (mean A)) / 6 ≤ scale eps A ^ 2 := by
    have := scale_sq he A
    rw [sqSum_shift]
    rw [spread] at this
    have := le_max_left (offSq A) eps
    linarith
  have h3 : 0 ≤ sqSum (shift A (mean A)) / 6 := by unfold sqSum; positivity
  have h4 := pow_le_pow_left₀ h3 h2 3
  have h5 : 0 < scale eps A ^ 6 := by have := scale_pos he A; positivity
  rw [abs_le_one_iff_mul_self_le_one]
  have h6 : (scale eps A) ^ 6 * (halfDet eps A * halfDet eps A) ≤ (scale eps A) ^ 6 * 1 := by nlinarith
  exact le_of_mul_le_mul_left h6 h5

/-- How close `r` is to `±1` is the discriminant: the products of the gaps between the eigenvalues. -/
theorem halfDet_gaps {eps : ℝ} (he : 0 < eps) {A : M3 ℝ} (hs : Sym A) (ho : eps ≤ offSq A) {a b c : ℝ}
    (h : ∀ t, (shift A t).det = (a - t) * (b - t) * (c - t)) :
    ((a - b) * (b - c) * (c - a)) ^ 2 = 108 * scale eps A ^ 6 * (1 - halfDet eps A ^ 2) := by
  have h1 := disc_eq (shift_sym hs (mean A)) (shift_mean_trace A) (a := a - mean A) (b := b - mean A) (c := c - mean A) (by
    intro t
    have := h (t + mean A)
    rw [show shift (shift A (mean A)) t = shift A (t + mean A) by simp only [shift]; congr 1 <;> ring, this]
    ring)
  rw [det_shift_mean he] at h1
  have h2 : sqSum (shift A (mean A)) / 6 = scale eps A ^ 2 := by
    have := scale_sq he A
    rw [sqSum_shift]
    rw [spread, max_eq_left ho] at this
    linarith
  rw [h2] at h1
  linear_combination h1

theorem clampR_dist {eps r : ℝ} (he : 0 ≤ eps) (he1 : eps ≤ 1) (h : |r| ≤ 1) : |r - clampR eps r| ≤ eps := by
  obtain ⟨h1, h2⟩ := abs_le.mp h
  unfold clampR
  rw [abs_le]
  rcases max_cases r (-1 + eps) with ⟨e, _⟩ | ⟨e, _⟩ <;> rw [e]
  · rcases min_cases r (1 - eps) with ⟨e3, _⟩ | ⟨e3, _⟩ <;> rw [e3] <;> constructor <;> linarith
  · rcases min_cases (-1 + eps) (1 - eps) with ⟨e3, _⟩ | ⟨e3, _⟩ <;> rw [e3] <;> constructor <;> linarith

/-- **Eigenvalues.** For a symmetric matrix whose off-diagonal squares add up to at least `eps` per
half, the trigonometric values make the characteristic polynomial up to a constant of at most
`2 p³ eps`. -/
theorem trig_charpoly_bound {eps : ℝ} (he : 0 < eps) (he1 : eps ≤ 1) {A : M3 ℝ} (hs : Sym A) (ho : eps ≤ offSq A) (t : ℝ) :
    |(shift A t).det - ((trig eps A).x - t) * ((trig eps A).y - t) * ((trig eps A).z - t)| ≤ 2 * scale eps A ^ 3 * eps := by
  rw [trig_charpoly he he1 hs ho t, add_sub_cancel_left, abs_mul]
  have h1 := clampR_dist he.le he1 (halfDet_le he hs)
  have h2 := scale_pos he A
  rw [abs_of_pos (by positivity)]
  exact mul_le_mul_of_nonneg_left h1 (by positivity)

/-- **Exact eigenvalues.** When moreover `r` is not clamped (no two eigenvalues nearly coincide), the
trigonometric values are exactly the three eigenvalues. -/
theorem trig_exact {eps : ℝ} (he : 0 < eps) (he1 : eps ≤ 1) {A : M3 ℝ} (hs : Sym A) (ho : eps ≤ offSq A)
    (hr : |halfDet eps A| ≤ 1 - eps) (t : ℝ) :
    (shift A t).det = ((trig eps A).x - t) * ((trig eps A).y - t) * ((trig eps A).z - t) := by
  rw [trig_charpoly he he1 hs ho t]
  obtain ⟨h1, h2⟩ := abs_le.mp hr
  have : clampR eps (halfDet eps A) = halfDet eps A := by
    unfold clampR
    rw [max_eq_left (by linarith), min_eq_left h2]
  rw [this]; ring

/-- **What is returned** differs from the trigonometric values by the weight `exp(-(p1 / 6 eps)²)`. -/
theorem eigvals_mix (eps : ℝ) (A : M3 ℝ) : (forward eps A).1 - trig eps A =
    exp (-((offSq A / (6 * eps)) ^ 2)) • (sort3 (diag A) - trig eps A) := by
  simp only [forward, eigvals, soft]
  ext <;> simp <;> ring

/-! ## The first eigenvector -/

theorem row_cross (C : M3 ℝ) (h : C.det = 0) :
    C.mulVec (V3.cross C.row0 C.row1) = 0 ∧ C.mulVec (V3.cross C.row1 C.row2) = 0 ∧ C.mulVec (V3.cross C.row0 C.row2) = 0 := by
  simp only [M3.det] at h
  refine ⟨?_, ?_, ?_⟩ <;>
  · ext <;> simp only [M3.mulVec, V3.cross, M3.row0, M3.row1, M3.row2, V3.zero_x, V3.zero_y, V3.zero_z] <;>
      first | ring1 | linear_combination h | linear_combination -h

theorem mulVec_add' (C : M3 ℝ) (v w : V3 ℝ) : C.mulVec (v + w) = C.mulVec v + C.mulVec w := by
  ext <;> simp [M3.mulVec] <;> ring

theorem mulVec_smul' (C : M3 ℝ) (k : ℝ) (v : V3 ℝ) : C.mulVec (k • v) = k • C.mulVec v := by
  ext <;> simp [M3.mulVec] <;> ring

theorem longest_crosses (eps : ℝ) {C : M3 ℝ} (h : C.det = 0) :
    C.mulVec (longest (crosses eps C)) = eps • C.mulVec (signs (V3.cross C.row0 C.row1)) := by
  obtain ⟨h1, h2, h3⟩ := row_cross C h
  rcases (longest_mem (crosses eps C)).2.2.2 with e | e | e <;> rw [e] <;>
    simp only [crosses, mulVec_add', mulVec_smul', h1, h2, h3, zero_add]

/-- **Residual.** When `alpha` is an eigenvalue, the first eigenvector of `_construct_eigenvecs` solves
`(A - alpha) v = 0` up to the regularisation: exactly `eps (A - alpha) s / N`, where `s` has entries
`±1` and `N` is the length of the longest regularised cross product of two rows. -/
theorem ev0_residual {eps : ℝ} {A : M3 ℝ} {alpha : ℝ} (h : (shift A alpha).det = 0) :
    A.mulVec (ev0 eps (shift A alpha)) - alpha • ev0 eps (shift A alpha) =
      (eps / √ (V3.normSq (longest (crosses eps (shift A alpha))))) •
        (shift A alpha).mulVec (signs (V3.cross (shift A alpha).row0 (shift A alpha).row1)) := by
  have e : ∀ v : V3 ℝ, A.mulVec v - alpha • v = (shift A alpha).mulVec v := by
    intro v; ext <;> simp [M3.mulVec, shift] <;> ring
  rw [e, ev0, mulVec_smul', longest_crosses eps h]
  ext <;> simp <;> ring

/-- The length by which the residual is divided: at least the length of each cross product of two rows,
less `√3 eps`. -/
theorem longest_ge {eps : ℝ} (he : 0 ≤ eps) (C : M3 ℝ) :
    ∀ r ∈ [V3.cross C.row0 C.row1, V3.cross C.row1 C.row2, V3.cross C.row0 C.row2],
      √ (V3.normSq r) - √ 3 * eps ≤ √ (V3.normSq (longest (crosses eps C))) := by
  have key : ∀ (r q : V3 ℝ), √ (V3.normSq r) - √ 3 * eps ≤ √ (V3.normSq (r + eps • signs q)) := by
    intro r q
    by_cases hle : √ (V3.normSq r) - √ 3 * eps ≤ 0
    · exact hle.trans (sqrt_nonneg _)
    apply le_sqrt_of_sq_le
    have h3 : V3.normSq (signs q) = 3 := by
      simp only [V3.normSq, V3.dot, signs]; linarith [sgn_sq q.x, sgn_sq q.y, sgn_sq q.z]
    have hcs : V3.dot r (signs q) ^ 2 ≤ V3.normSq r * 3 := by
      rw [← h3]; simp only [V3.normSq, V3.dot]
      generalize signs q = s
      nlinarith [sq_nonneg (r.x * s.y - r.y * s.x), sq_nonneg (r.x * s.z - r.z * s.x), sq_nonneg (r.y * s.z - r.z * s.y)]
    have hb : -(√ (V3.normSq r) * √ 3) ≤ V3.dot r (signs q) := by
      rw [← sqrt_mul (normSq_nonneg r)]
      have := abs_le_sqrt hcs
      linarith [neg_abs_le (V3.dot r (signs q))]
    have he2 : V3.normSq (r + eps • signs q) = V3.normSq r + 2 * eps * V3.dot r (signs q) + eps ^ 2 * V3.normSq (signs q) := by
      simp only [V3.normSq, V3.dot, V3.add_x, V3.add_y, V3.add_z, V3.smul_x, V3.smul_y, V3.smul_z]; ring
    rw [he2, h3]
    have s1 := sq_sqrt (normSq_nonneg r)
    have s2 : √ 3 ^ 2 = 3 := sq_sqrt (by norm_num)
    nlinarith
  obtain ⟨m1, m2, m3, -⟩ := longest_mem (crosses eps C)
  intro r hr
  simp only [List.mem_cons, List.not_mem_nil, or_false] at hr
  rcases hr with rfl | rfl | rfl
  · exact (key _ _).trans (sqrt_le_sqrt m1)
  · exact (key _ _).trans (sqrt_le_sqrt m2)
  · exact (key _ _).trans (sqrt_le_sqrt m3)

/-! ## Small matrices -/

/-- The covariance of points spread evenly over a horizontal plane. -/
def flat (a : ℝ) : M3 ℝ := ⟨a, 0, 0, 0, a, 0, 0, 0, 0⟩

theorem flat_vals (eps : ℝ) {a : ℝ} (ha : 0 < a) : (forward eps (flat a)).1 = ⟨0, a, a⟩ := by
  rw [eigvals_diag eps (by simp [offSq, flat])]
  simp [sort3, diag, flat, ha.le]

/-- **Flat neighbourhoods.** The eigenvector of the eigenvalue zero of `diag(a, a, 0)` is `(0, 0, ±1)`;
what is returned is `(-eps, -eps, a² + eps)`, normalised. -/
theorem flat_normal {eps a : ℝ} (he : 0 < eps) (ha : 0 < a) : (forward eps (flat a)).2.1 =
    (1 / √ (2 * eps ^ 2 + (a ^ 2 + eps) ^ 2)) • ⟨-eps, -eps, a ^ 2 + eps⟩ := by
  have hv := flat_vals eps ha
  simp only [forward] at hv
  simp only [forward, eigvecs, hv]
  rw [if_pos (by simpa using ha)]
  have hc : crosses eps (shift (flat a) 0) = (⟨-eps, -eps, a ^ 2 + eps⟩, ⟨-eps, -eps, eps⟩, ⟨-eps, -eps, eps⟩) := by
    have : 0 < a * a := by positivity
    simp only [crosses, shift, flat, signs, V3.cross, M3.row0, M3.row1, M3.row2, sgn]
    refine Prod.ext ?_ (Prod.ext ?_ ?_) <;> ext <;> (simp [this]; try ring)
  have hl : longest (crosses eps (shift (flat a) 0)) = ⟨-eps, -eps, a ^ 2 + eps⟩ := by
    rw [hc, longest, if_pos]
    simp only [V3.normSq, V3.dot, and_self]
    have : 0 < a ^ 2 := by positivity
    nlinarith
  simp only [construct, ev0, hl]
  congr 3
  simp only [V3.normSq, V3.dot]; ring

/-- The normal of a flat neighbourhood with `a² ≤ eps` (a spread below about two centimetres when the
unit is the metre) is off by more than 35 degrees. -/
theorem flat_normal_bad {eps a : ℝ} (he : 0 < eps) (ha : 0 < a) (h : a ^ 2 ≤ eps) :
    (forward eps (flat a)).2.1.z ^ 2 ≤ 2 / 3 := by
  rw [flat_normal he ha]
  simp only [V3.smul_z]
  have hq : 0 < 2 * eps ^ 2 + (a ^ 2 + eps) ^ 2 := by positivity
  rw [mul_pow, div_pow, sq_sqrt hq.le, one_pow, one_div_mul_eq_div, div_le_div_iff₀ hq (by norm_num)]
  nlinarith [sq_nonneg a]

/-- A spread of one centimetre on a side is inside that bound. -/
example : 0 < epsF ∧ ((1 / 10000 : ℝ)) ^ 2 ≤ epsF := by unfold epsF; norm_num

theorem trig_abs (eps : ℝ) (A : M3 ℝ) : |(trig eps A).x| ≤ |mean A| + 2 * scale eps A ∧
    |(trig eps A).y| ≤ |mean A| + 2 * scale eps A ∧ |(trig eps A).z| ≤ |mean A| + 2 * scale eps A := by
  have hs : 0 ≤ scale eps A := sqrt_nonneg _
  have key : ∀ t : ℝ, |mean A + 2 * scale eps A * cos t| ≤ |mean A| + 2 * scale eps A := by
    intro t
    refine (abs_add_le _ _).trans ?_
    rw [abs_mul, abs_of_nonneg (by positivity : 0 ≤ 2 * scale eps A)]
    nlinarith [abs_cos_le_one t]
  refine ⟨key _, ?_, key _⟩
  rw [trig_mid]; exact key _

theorem scaled_le (eps : ℝ) (A : M3 ℝ) {d : ℝ} (h0 : 0 < d) (h1 : d ≤ 1) :
    |mean (d • A)| + 2 * scale eps (d • A) ≤ |mean A| + 2 * scale eps A := by
  have hd : d ^ 2 ≤ 1 := pow_le_one₀ h0.le h1
  have hm : mean (d • A) = d * mean A := by simp only [mean, M3.smul_def]; ring
  have ho : offSq (d • A) = d ^ 2 * offSq A := by simp only [offSq, M3.smul_def]; ring
  have e1 : |mean (d • A)| ≤ |mean A| := by
    rw [hm, abs_mul, abs_of_pos h0]
    nlinarith [abs_nonneg (mean A)]
  have e2 : scale eps (d • A) ≤ scale eps A := by
    unfold scale
    apply sqrt_le_sqrt
    have : spread eps (d • A) ≤ spread eps A := by
      unfold spread
      rw [hm, ho]
      have hmax : max (d ^ 2 * offSq A) eps ≤ max (offSq A) eps := by
        apply max_le_max _ le_rfl
        nlinarith [offSq_nonneg A]
      have hc : ∀ x : ℝ, (d * x - d * mean A) ^ 2 ≤ (x - mean A) ^ 2 := by
        intro x
        rw [← mul_sub, mul_pow]
        nlinarith [sq_nonneg (x - mean A)]
      have c1 := hc A.m00
      have c2 := hc A.m11
      have c3 := hc A.m22
      simp only [M3.smul_def]
      linarith
    linarith
  linarith

theorem soft_small {eps : ℝ} (A : M3 ℝ) (d : ℝ) :
    0 ≤ 1 - soft eps (d • A) ∧ 1 - soft eps (d • A) ≤ d ^ 4 * (offSq A / (6 * eps)) ^ 2 := by
  have ho : offSq (d • A) = d ^ 2 * offSq A := by simp only [offSq, M3.smul_def]; ring
  refine ⟨by linarith [(soft_range eps (d • A)).2], ?_⟩
  unfold soft
  rw [ho]
  have := add_one_le_exp (-((d ^ 2 * offSq A / (6 * eps)) ^ 2))
  have e : (d ^ 2 * offSq A / (6 * eps)) ^ 2 = d ^ 4 * (offSq A / (6 * eps)) ^ 2 := by ring
  linarith

theorem sort3_smul {d : ℝ} (h : 0 ≤ d) (v : V3 ℝ) : sort3 (d • v) = d • sort3 v := by
  ext <;> simp only [sort3, V3.smul_x, V3.smul_y, V3.smul_z] <;>
    simp only [← mul_min_of_nonneg _ _ h, ← mul_max_of_nonneg _ _ h]

/-- The relative error that small matrices make. -/
theorem small_error {eps : ℝ} (A : M3 ℝ) {d : ℝ} (h0 : 0 < d) (h1 : d ≤ 1) {T S : ℝ}
    (hT : |T| ≤ |mean A| + 2 * scale eps A) :
    |(soft eps (d • A) * (d * S) + (1 - soft eps (d • A)) * T) / d - S| ≤
      d * ((offSq A / (6 * eps)) ^ 2 * (|mean A| + 2 * scale eps A + |S|)) := by
  obtain ⟨a1, a2⟩ := soft_small (eps := eps) A d
  have e : (soft eps (d • A) * (d * S) + (1 - soft eps (d • A)) * T) / d - S = (1 - soft eps (d • A)) * (T - d * S) / d := by
    field_simp; ring
  rw [e, abs_div, abs_mul, abs_of_nonneg a1, abs_of_pos h0, div_le_iff₀ h0]
  have h2 : |T - d * S| ≤ |mean A| + 2 * scale eps A + |S| := by
    refine (abs_sub _ _).trans ?_
    rw [abs_mul, abs_of_pos h0]
    nlinarith [abs_nonneg S]
  have h3 : 0 ≤ |mean A| + 2 * scale eps A + |S| := (abs_nonneg _).trans h2
  have h4 : d ^ 4 ≤ d ^ 2 := pow_le_pow_of_le_one h0.le h1 (by norm_num)
  calc (1 - soft eps (d • A)) * |T - d * S|
      ≤ (d ^ 4 * (offSq A / (6 * eps)) ^ 2) * (|mean A| + 2 * scale eps A + |S|) :=
        mul_le_mul a2 h2 (abs_nonneg _) (by positivity)
    _ ≤ (d ^ 2 * (offSq A / (6 * eps)) ^ 2) * (|mean A| + 2 * scale eps A + |S|) := by
        refine mul_le_mul_of_nonneg_right (mul_le_mul_of_nonneg_right h4 (sq_nonneg _)) h3
    _ = _ := by ring

theorem tendsto_of_small {f : ℝ → ℝ} {L C : ℝ} (h : ∀ d, 0 < d → d ≤ 1 → |f d - L| ≤ d * C) :
    Filter.Tendsto f (nhdsWithin 0 (Set.Ioi 0)) (nhds L) := by
  rw [tendsto_iff_norm_sub_tendsto_zero]
  have hz : Filter.Tendsto (fun d : ℝ => d * C) (nhdsWithin 0 (Set.Ioi 0)) (nhds 0) := by
    have : Filter.Tendsto (fun d : ℝ => d * C) (nhds 0) (nhds (0 * C)) := (continuous_id.mul continuous_const).tendsto 0
    rw [zero_mul] at this
    exact this.mono_left nhdsWithin_le_nhds
  refine squeeze_zero' (Filter.Eventually.of_forall fun _ => norm_nonneg _) ?_ hz
  filter_upwards [Ioo_mem_nhdsGT (show (0 : ℝ) < 1 by norm_num)] with d hd
  exact h d hd.1 hd.2.le

/-- **Small matrices.** The relative eigenvalues of a matrix that is scaled down tend to its sorted
diagonal, whatever its eigenvalues are: the function is not homogeneous. -/
theorem small_limit (eps : ℝ) (A : M3 ℝ) :
    Filter.Tendsto (fun d : ℝ => (forward eps (d • A)).1.x / d) (nhdsWithin 0 (Set.Ioi 0)) (nhds (sort3 (diag A)).x) ∧
    Filter.Tendsto (fun d : ℝ => (forward eps (d • A)).1.y / d) (nhdsWithin 0 (Set.Ioi 0)) (nhds (sort3 (diag A)).y) ∧
    Filter.Tendsto (fun d : ℝ => (forward eps (d • A)).1.z / d) (nhdsWithin 0 (Set.Ioi 0)) (nhds (sort3 (diag A)).z) := by
  have hd : ∀ d : ℝ, diag (d • A) = d • diag A := fun d => rfl
  refine ⟨tendsto_of_small (C := (offSq A / (6 * eps)) ^ 2 * (|mean A| + 2 * scale eps A + |(sort3 (diag A)).x|)) fun d h0 h1 => ?_,
    tendsto_of_small (C := (offSq A / (6 * eps)) ^ 2 * (|mean A| + 2 * scale eps A + |(sort3 (diag A)).y|)) fun d h0 h1 => ?_,
    tendsto_of_small (C := (offSq A / (6 * eps)) ^ 2 * (|mean A| + 2 * scale eps A + |(sort3 (diag A)).z|)) fun d h0 h1 => ?_⟩
  · have := small_error (S := (sort3 (diag A)).x) A h0 h1 ((trig_abs eps (d • A)).1.trans (scaled_le eps A h0 h1))
    simp only [forward, eigvals, hd, sort3_smul h0.le]
    exact this
  · have := small_error (S := (sort3 (diag A)).y) A h0 h1 ((trig_abs eps (d • A)).2.1.trans (scaled_le eps A h0 h1))
    simp only [forward, eigvals, hd, sort3_smul h0.le]
    exact this
  · have := small_error (S := (sort3 (diag A)).z) A h0 h1 ((trig_abs eps (d • A)).2.2.trans (scaled_le eps A h0 h1))
    simp only [forward, eigvals, hd, sort3_smul h0.le]
    exact this

/-- A matrix with eigenvalues 1, 3 and 5 whose sorted diagonal is 2, 2, 5. -/
example : Sym ⟨2, 1, 0, 1, 2, 0, 0, 0, 5⟩ ∧
    (∀ t, (shift ⟨2, 1, 0, 1, 2, 0, 0, 0, 5⟩ t).det = (1 - t) * (3 - t) * (5 - t)) ∧
    sort3 (diag ⟨2, 1, 0, 1, 2, 0, 0, 0, 5⟩) = ⟨2, 2, 5⟩ := by
  refine ⟨⟨rfl, rfl, rfl⟩, fun t => ?_, ?_⟩
  · simp only [shift, M3.det]; ring
  · simp only [sort3, diag]; norm_num

/-- The hypotheses of `trig_exact` are met by that matrix with the actual `eps`. -/
example : epsF ≤ offSq ⟨2, 1, 0, 1, 2, 0, 0, 0, 5⟩ ∧ |halfDet epsF ⟨2, 1, 0, 1, 2, 0, 0, 0, 5⟩| ≤ 1 - epsF := by
  have ho : offSq ⟨2, 1, 0, 1, 2, 0, 0, 0, 5⟩ = 1 := by norm_num [offSq]
  refine ⟨by rw [ho]; norm_num [epsF], ?_⟩
  have hg := halfDet_gaps (eps := epsF) (by norm_num [epsF]) (A := ⟨2, 1, 0, 1, 2, 0, 0, 0, 5⟩) ⟨rfl, rfl, rfl⟩
    (by rw [ho]; norm_num [epsF]) (a := 1) (b := 3) (c := 5) (fun t => by simp only [shift, M3.det]; ring)
  have hs := scale_sq (eps := epsF) (by norm_num [epsF]) ⟨2, 1, 0, 1, 2, 0, 0, 0, 5⟩
  rw [spread, ho, max_eq_left (by norm_num [epsF])] at hs
  norm_num [mean] at hs
  have h6 : scale epsF ⟨2, 1, 0, 1, 2, 0, 0, 0, 5⟩ ^ 6 = (4 / 3) ^ 3 := by
    rw [show (6 : ℕ) = 2 * 3 by norm_num, pow_mul]
    congr 1; linarith
  rw [h6] at hg
  have : halfDet epsF ⟨2, 1, 0, 1, 2, 0, 0, 0, 5⟩ ^ 2 = 0 := by nlinarith
  rw [pow_eq_zero_iff (by norm_num)] at this
  rw [this]; norm_num [epsF]

end

end P3D.SymEig
