/-
Model of the neural radiance fields of implicitron: appended global codes, rotated ray directions, the transformer of NeRFormer.

* `implicitron/models/implicit_function/utils.py:19-30` (broadcast_global_code), `33-90` (create_embeddings_for_implicit_function)
* `implicitron/models/implicit_function/neural_radiance_field.py:116-129` (_get_colors), `139-236` (forward)
* `implicitron/models/implicit_function/decoding_functions.py:302-425` (TransformerWithInputSkips), `428-491` (TransformerEncoderLayer)

Numbers are reals.  A tensor is a function of its indices together with its sizes; `view`, `permute` and `reshape` are the index computations of a contiguous tensor.  A layer of the
transformer is given by the scores, the values and whatever follows the attention (projection, residuals, norms, feed-forward network), which acts on each element by itself.  Not modelled:
the weights, dropout (zero in the code), floats, gradients.
-/
import Mathlib.Analysis.SpecialFunctions.Exp
import Mathlib.Algebra.BigOperators.Fin
import Mathlib.Algebra.BigOperators.Field
import Mathlib.Logic.Equiv.Fin.Basic
import Mathlib.Analysis.SpecialFunctions.Pow.Real
import Mathlib.Tactic.Ring
import Mathlib.Tactic.FieldSimp
import Mathlib.Tactic.Linarith
import Mathlib.Tactic.NormNum
import Verif.Vec3

set_option linter.unusedSectionVars false

namespace P3D.NerfFields

open scoped BigOperators

inductive Err
  | shape
  deriving DecidableEq, Repr

/-! ## Global codes -/

/-- The code as a flat tensor: `n` rows of `D` numbers. -/
def flatCode {K : Type} (code : Nat → Nat → K) (D i : Nat) : K := code (i / D) (i % D)

/-- `global_code.view(bs, 1, …, -1).expand(…, D)`, `utils.py:25-29`: what is appended to batch element `b` at channel `k`. -/
def broadcastCode {K : Type} (code : Nat → Nat → K) (n D bs : Nat) : Except Err (Nat → Nat → K) :=
  if bs = 0 ∨ (n * D) % bs ≠ 0 then .error .shape
  else if n * D / bs = D then .ok (fun b k => flatCode code D (b * (n * D / bs) + k))
  else if n * D / bs = 1 then .ok (fun b _ => flatCode code D (b * (n * D / bs)))
  else .error .shape

/-- **Every batch element gets its own code.** -/
theorem broadcast_own {K : Type} (code : Nat → Nat → K) (D bs : Nat) (hb : 0 < bs) :
    ∃ g, broadcastCode code bs D bs = .ok g ∧ ∀ b k, b < bs → k < D → g b k = code b k := by
  unfold broadcastCode
  have h1 : bs * D / bs = D := Nat.mul_div_cancel_left D hb
  rw [if_neg (by simp; omega), if_pos h1]
  refine ⟨_, rfl, ?_⟩
  intro b k _ hk
  have hD : 0 < D := by omega
  unfold flatCode
  rw [h1, Nat.add_comm, Nat.add_mul_div_right _ _ hD, Nat.add_mul_mod_self_right, Nat.div_eq_of_lt hk, Nat.mod_eq_of_lt hk, Nat.zero_add]

/-- **A wrong number of codes is refused, unless there are as many numbers in all as batch elements**: then each element gets a single number of the codes, repeated, without error. -/
theorem broadcast_wrong {K : Type} (code : Nat → Nat → K) (n D bs : Nat) (hb : 0 < bs) (hD : 1 < D) (hn : n ≠ bs) :
    (n * D ≠ bs → broadcastCode code n D bs = .error .shape) ∧
    (n * D = bs → ∃ g, broadcastCode code n D bs = .ok g ∧ ∀ b k, g b k = code (b / D) (b % D)) := by
  unfold broadcastCode
  constructor
  · intro h
    split_ifs with h1 h2 h3
    · rfl
    · exfalso
      push Not at h1
      have := Nat.div_mul_cancel (Nat.dvd_of_mod_eq_zero h1.2)
      rw [h2, Nat.mul_comm] at this
      exact hn (Nat.eq_of_mul_eq_mul_right (by omega) this).symm
    · exfalso
      push Not at h1
      have := Nat.div_mul_cancel (Nat.dvd_of_mod_eq_zero h1.2)
      rw [h3] at this
      omega
    · rfl
  · intro h
    rw [h, Nat.div_self hb, if_neg (by simp; omega), if_neg (by omega), if_pos rfl]
    exact ⟨_, rfl, fun b k => by unfold flatCode; rw [Nat.mul_one]⟩

example : ∃ g, broadcastCode (fun i j => 10 * i + j) 1 2 2 = .ok g ∧ g 0 0 = 0 ∧ g 0 1 = 0 ∧ g 1 0 = 1 ∧ g 1 1 = 1 := by
  obtain ⟨g, h1, h2⟩ := (broadcast_wrong (fun i j => 10 * i + j) 1 2 2 (by norm_num) (by norm_num) (by norm_num)).2 rfl
  exact ⟨g, h1, by simp [h2]⟩

/-! ## Directions in camera coordinates -/

section dirs
variable {K : Type} [CommRing K]

/-- A row vector times a rotation, given by its rows. -/
def rowMul (d : V3 K) (R : V3 (V3 K)) : V3 K :=
  ⟨d.x * R.x.x + d.y * R.y.x + d.z * R.z.x, d.x * R.x.y + d.y * R.y.y + d.z * R.z.y, d.x * R.x.z + d.y * R.y.z + d.z * R.z.z⟩

/-- `ray_bundle.directions @ camera.R`, `neural_radiance_field.py:229`, for directions of size (N, a, b, 3), which is what all ray samplers return (`raysampling.py:245-247`), and `M` rotations:
    the rules of `matmul` align the rotations with the second dimension.  The result is the size of that dimension and the entries. -/
def rotate (a M : Nat) (dirs : Nat → Nat → Nat → V3 K) (R : Nat → V3 (V3 K)) : Except Err (Nat × (Nat → Nat → Nat → V3 K)) :=
  if M = 1 then .ok (a, fun n i j => rowMul (dirs n i j) (R 0))
  else if a = M then .ok (a, fun n i j => rowMul (dirs n i j) (R i))
  else if a = 1 then .ok (M, fun n i j => rowMul (dirs n 0 j) (R i))
  else .error .shape

/-- **One camera**: all rays are rotated by it. -/
theorem rotate_one (a : Nat) (dirs : Nat → Nat → Nat → V3 K) (R : Nat → V3 (V3 K)) :
    rotate a 1 dirs R = .ok (a, fun n i j => rowMul (dirs n i j) (R 0)) := rfl

theorem rowMul_e [Nontrivial K] (A B : V3 (V3 K)) (h : ∀ d : V3 K, rowMul d A = rowMul d B) : A = B := by
  have h1 := h ⟨1, 0, 0⟩
  have h2 := h ⟨0, 1, 0⟩
  have h3 := h ⟨0, 0, 1⟩
  simp only [rowMul, V3.mk.injEq, one_mul, zero_mul, add_zero, zero_add] at h1 h2 h3
  ext
  · exact h1.1
  · exact h1.2.1
  · exact h1.2.2
  · exact h2.1
  · exact h2.2.1
  · exact h2.2.2
  · exact h3.1
  · exact h3.2.1
  · exact h3.2.2

/-- **Several cameras**: with more than one ray along the second dimension an exception is raised unless this dimension happens to be the number of cameras; then the rays of row `i` are rotated by
    camera `i`, whatever camera they belong to, which is right for all directions only if all cameras have the same rotation. -/
theorem rotate_many [Nontrivial K] (a N : Nat) (hN : 1 < N) (ha : 1 < a) (dirs : Nat → Nat → Nat → V3 K) (R : Nat → V3 (V3 K)) :
    (a ≠ N → rotate a N dirs R = .error .shape) ∧
    (a = N → rotate a N dirs R = .ok (a, fun n i j => rowMul (dirs n i j) (R i))) ∧
    ((∀ d : V3 K, ∀ n i, n < N → i < N → rowMul d (R i) = rowMul d (R n)) ↔ ∀ n i, n < N → i < N → R i = R n) := by
  unfold rotate
  refine ⟨fun h => ?_, fun h => ?_, ?_⟩
  · rw [if_neg (by omega), if_neg h, if_neg (by omega)]
  · rw [if_neg (by omega), if_pos h]
  · exact ⟨fun h n i hn hi => rowMul_e _ _ (fun d => h d n i hn hi), fun h d n i hn hi => by rw [h n i hn hi]⟩

example : rotate 800 2 (fun _ _ _ => (⟨1, 0, 0⟩ : V3 ℤ)) (fun _ => ⟨⟨1, 0, 0⟩, ⟨0, 1, 0⟩, ⟨0, 0, 1⟩⟩) = .error .shape :=
  (rotate_many 800 2 (by norm_num) (by norm_num) _ _).1 (by norm_num)

end dirs

/-! ## Colours -/

/-- The Euclidean norm. -/
noncomputable def norm3 (d : V3 ℝ) : ℝ := Real.sqrt (d.x ^ 2 + d.y ^ 2 + d.z ^ 2)

/-- `torch.nn.functional.normalize(d, dim=-1)` with its default `eps = 1e-12`, `neural_radiance_field.py:123`. -/
noncomputable def normalize (d : V3 ℝ) : V3 ℝ := ⟨d.x / max (norm3 d) 1e-12, d.y / max (norm3 d) 1e-12, d.z / max (norm3 d) 1e-12⟩

/-- `forward`, `neural_radiance_field.py:184-236`, at one point of one ray: `enc` is the encoder of the embedded point, `dens` the density layer, `col` the layers up to the sigmoid. -/
noncomputable def field {E : Type} (enc : V3 ℝ → E) (dens : E → ℝ) (col : E → V3 ℝ → Nat → ℝ) (p d : V3 ℝ) : ℝ × (Nat → ℝ) :=
  (dens (enc p), fun k => 1 / (1 + Real.exp (-(col (enc p) (normalize d) k))))

theorem norm3_scale (c : ℝ) (hc : 0 < c) (d : V3 ℝ) : norm3 ⟨c * d.x, c * d.y, c * d.z⟩ = c * norm3 d := by
  unfold norm3
  have : (c * d.x) ^ 2 + (c * d.y) ^ 2 + (c * d.z) ^ 2 = c ^ 2 * (d.x ^ 2 + d.y ^ 2 + d.z ^ 2) := by ring
  simp only [this]
  rw [Real.sqrt_mul (by positivity), Real.sqrt_sq hc.le]

/-- **Unit directions**: normalized directions have length 1 from length 1e-12 on and are shorter below. -/
theorem normalize_spec (d : V3 ℝ) : (1e-12 ≤ norm3 d → norm3 (normalize d) = 1) ∧ (norm3 d < 1e-12 → norm3 (normalize d) = norm3 d / 1e-12 ∧ norm3 (normalize d) < 1) := by
  have hp : 0 < max (norm3 d) 1e-12 := lt_of_lt_of_le (by norm_num) (le_max_right _ _)
  have e : norm3 (normalize d) = norm3 d / max (norm3 d) 1e-12 := by
    have := norm3_scale (max (norm3 d) 1e-12)⁻¹ (inv_pos.mpr hp) d
    rw [div_eq_inv_mul, ← this]
    unfold normalize
    simp only [div_eq_inv_mul]
  rw [e]
  constructor
  · intro h
    rw [max_eq_left h]
    exact div_self (ne_of_gt (lt_of_lt_of_le (by norm_num) h))
  · intro h
    rw [max_eq_right h.le]
    exact ⟨rfl, (div_lt_one (by norm_num)).mpr h⟩

/-- **Densities do not depend on the direction, colours not on its length** (above 1e-12), and colours are strictly between 0 and 1. -/
theorem field_spec {E : Type} (enc : V3 ℝ → E) (dens : E → ℝ) (col : E → V3 ℝ → Nat → ℝ) (p d : V3 ℝ) :
    (∀ d', (field enc dens col p d').1 = (field enc dens col p d).1) ∧
    (∀ k, 0 < (field enc dens col p d).2 k ∧ (field enc dens col p d).2 k < 1) ∧
    (∀ c, 0 < c → 1e-12 ≤ norm3 d → 1e-12 ≤ c * norm3 d → field enc dens col p ⟨c * d.x, c * d.y, c * d.z⟩ = field enc dens col p d) := by
  refine ⟨fun _ => rfl, fun k => ?_, fun c hc h1 h2 => ?_⟩
  · have := Real.exp_pos (-(col (enc p) (normalize d) k))
    simp only [field]
    constructor
    · positivity
    · rw [div_lt_one (by linarith)]; linarith
  · have hn : 0 < norm3 d := lt_of_lt_of_le (by norm_num) h1
    have e : normalize ⟨c * d.x, c * d.y, c * d.z⟩ = normalize d := by
      unfold normalize
      rw [norm3_scale c hc, max_eq_left h2, max_eq_left h1]
      ext <;> dsimp only <;> field_simp
    unfold field
    rw [e]

/-! ## The transformer -/

/-- An encoder layer (`decoding_functions.py:428-491`): scores and values of each head, and everything after the attention, which acts on each element of the sequence by itself. -/
structure Layer (V : Type) where
  heads : Nat
  score : Nat → V → V → ℝ
  value : Nat → V → Nat → ℝ
  post : V → (Nat → Nat → ℝ) → V

section tr
variable {V : Type}

/-- `TransformerEncoderLayer.forward` on a sequence of `n` elements without masks (`decoding_functions.py:466-491`), with the softmax attention of `torch.nn.MultiheadAttention`. -/
noncomputable def attn (L : Layer V) {n : Nat} (seq : Fin n → V) (i : Fin n) : V :=
  L.post (seq i) (fun h k => ∑ j, Real.exp (L.score h (seq i) (seq j)) / (∑ j', Real.exp (L.score h (seq i) (seq j'))) * L.value h (seq j) k)

/-- **Attention does not know the order**: a permuted sequence gives the permuted result. -/
theorem attn_perm (L : Layer V) {n : Nat} (σ : Equiv.Perm (Fin n)) (seq : Fin n → V) (i : Fin n) :
    attn L (fun j => seq (σ j)) i = attn L seq (σ i) := by
  unfold attn
  congr 1
  funext h k
  rw [Equiv.sum_comp σ (fun j => Real.exp (L.score h (seq (σ i)) (seq j)))]
  exact Equiv.sum_comp σ (fun j => Real.exp (L.score h (seq (σ i)) (seq j)) / (∑ j', Real.exp (L.score h (seq (σ i)) (seq j'))) * L.value h (seq j) k)

/-- One round of the loop: pool attention, ray attention, and the skip connection if any (`z ↦ skip_linear(z)` added). -/
structure Round (V : Type) where
  pool : Layer V
  ray : Layer V
  skip : Option (V → V → V)

/-- The skip connection, `decoding_functions.py:391-396`. -/
def addSkip (s : Option (V → V → V)) (z y : V) : V := match s with
  | none => y
  | some f => f z y

theorem addSkip_elim (s : Option (V → V → V)) (z y : V) : s.elim y (fun f => f z y) = addSkip s z y := by
  cases s <;> rfl

/-- One round, `decoding_functions.py:386-417`.  `Y p c` is `y_p.reshape(n_pool, n_pts * B * n_rays, dimh)`, `Z` the skip tensor in the same layout, `BR` is `B * n_rays`;
    the result is `y_p` of size (n_pool, n_pts, B * n_rays). -/
noncomputable def roundT (P T BR : Nat) (rd : Round V) (Z Y : Nat → Nat → V) : Nat → Nat → Nat → V :=
  let Y1 := fun p c => addSkip rd.skip (Z p c) (Y p c)
  let Y2 := fun p c => if h : p < P then attn rd.pool (fun i : Fin P => Y1 i c) ⟨p, h⟩ else Y1 p c
  -- .view(n_pool, n_pts, B * n_rays, dimh).permute(1, 0, 2, 3).reshape(n_pts, n_pool * B * n_rays, dimh)
  let Y3 := fun t q => Y2 (q / BR) (t * BR + q % BR)
  let Y4 := fun t q => if h : t < T then attn rd.ray (fun i : Fin T => Y3 i q) ⟨t, h⟩ else Y3 t q
  -- .view(n_pts, n_pool, B * n_rays, dimh).permute(1, 0, 2, 3)
  fun p t br => Y4 t (p * BR + br)

/-- The loop. -/
noncomputable def loopT (P T BR : Nat) (Z : Nat → Nat → V) : List (Round V) → (Nat → Nat → Nat → V) → Nat → Nat → Nat → V
  | [], y => y
  | rd :: rds, y => loopT P T BR Z rds (roundT P T BR rd Z (fun p c => y p (c / BR) (c % BR)))

/-- The tensor (B, n_pool, n_rays, n_pts) permuted to (n_pool, n_pts, B, n_rays), the last two merged, `decoding_functions.py:379-382`. -/
def toPool (R : Nat) (x : Nat → Nat → Nat → Nat → V) (p t br : Nat) : V := x (br / R) p (br % R) t

/-- `TransformerWithInputSkips.forward` up to the last softmax, `decoding_functions.py:371-419`: `y` is `first(x)`, `z` the skip tensor; the result has indices (b, p, r, t). -/
noncomputable def transform (B P R T : Nat) (rds : List (Round V)) (z y : Nat → Nat → Nat → Nat → V) : Nat → Nat → Nat → Nat → V :=
  let out := loopT P T (B * R) (fun p c => toPool R z p (c / (B * R)) (c % (B * R))) rds (toPool R y)
  fun b p r t => out p t (b * R + r)

/-- Specification: the transformer of a single ray. -/
noncomputable def rayRound {P T : Nat} (rd : Round V) (z y : Fin P → Fin T → V) : Fin P → Fin T → V :=
  let y1 := fun p t => rd.skip.elim (y p t) (fun f => f (z p t) (y p t))
  let y2 := fun p t => attn rd.pool (fun i => y1 i t) p
  fun p t => attn rd.ray (fun i => y2 p i) t

/-- All rounds of a ray. -/
noncomputable def rayAll {P T : Nat} (z : Fin P → Fin T → V) : List (Round V) → (Fin P → Fin T → V) → Fin P → Fin T → V
  | [], y => y
  | rd :: rds, y => rayAll z rds (rayRound rd z y)

theorem round_ray (P T BR : Nat) (rd : Round V) (Z : Nat → Nat → V) (y : Nat → Nat → Nat → V) (br : Nat) (hbr : br < BR) (p : Fin P) (t : Fin T) :
    roundT P T BR rd Z (fun p c => y p (c / BR) (c % BR)) p t br =
      rayRound rd (fun (p : Fin P) (t : Fin T) => Z p (t * BR + br)) (fun p t => y p t br) p t := by
  have hBR : 0 < BR := by omega
  have e1 : ∀ q : Nat, (q * BR + br) / BR = q := fun q => by
    rw [Nat.add_comm, Nat.add_mul_div_right _ _ hBR, Nat.div_eq_of_lt hbr, Nat.zero_add]
  have e2 : ∀ q : Nat, (q * BR + br) % BR = br := fun q => by
    rw [Nat.add_comm, Nat.add_mul_mod_self_right, Nat.mod_eq_of_lt hbr]
  unfold roundT rayRound
  dsimp only
  rw [dif_pos t.isLt]
  simp only [addSkip_elim, e1, e2, Fin.eta, dif_pos p.isLt]

theorem loop_ray (P T BR : Nat) (Z : Nat → Nat → V) (br : Nat) (hbr : br < BR) (rds : List (Round V)) : ∀ (y : Nat → Nat → Nat → V) (p : Fin P) (t : Fin T),
    loopT P T BR Z rds y p t br = rayAll (fun (p : Fin P) (t : Fin T) => Z p (t * BR + br)) rds (fun p t => y p t br) p t := by
  induction rds with
  | nil => intro y p t; rfl
  | cons rd rds ih =>
    intro y p t
    unfold loopT rayAll
    rw [ih]
    congr 1
    funext p t
    exact round_ray P T BR rd Z y br hbr p t

/-- **The reshapes keep rays apart**: what the transformer computes for a ray of a batch element is the transformer of this ray alone: attention over the sources at each point and over the points
    for each source, never across rays or batch elements. -/
theorem transform_ray (B P R T : Nat) (rds : List (Round V)) (z y : Nat → Nat → Nat → Nat → V) (b r : Nat) (hb : b < B) (hr : r < R) (p : Fin P) (t : Fin T) :
    transform B P R T rds z y b p r t = rayAll (fun (p : Fin P) (t : Fin T) => z b p r t) rds (fun p t => y b p r t) p t := by
  have hR : 0 < R := by omega
  have hbr : b * R + r < B * R := by
    have : (b + 1) * R ≤ B * R := Nat.mul_le_mul_right R hb
    rw [Nat.add_mul] at this
    omega
  have hBR : 0 < B * R := by omega
  have e1 : (b * R + r) / R = b := by rw [Nat.add_comm, Nat.add_mul_div_right _ _ hR, Nat.div_eq_of_lt hr, Nat.zero_add]
  have e2 : (b * R + r) % R = r := by rw [Nat.add_comm, Nat.add_mul_mod_self_right, Nat.mod_eq_of_lt hr]
  have e3 : ∀ q : Nat, (q * (B * R) + (b * R + r)) / (B * R) = q := fun q => by
    rw [Nat.add_comm, Nat.add_mul_div_right _ _ hBR, Nat.div_eq_of_lt hbr, Nat.zero_add]
  have e4 : ∀ q : Nat, (q * (B * R) + (b * R + r)) % (B * R) = b * R + r := fun q => by
    rw [Nat.add_comm, Nat.add_mul_mod_self_right, Nat.mod_eq_of_lt hbr]
  unfold transform
  rw [loop_ray P T (B * R) _ _ hbr]
  simp only [toPool, e1, e2, e3, e4]

theorem rayAll_pool {P T : Nat} (σ : Equiv.Perm (Fin P)) (rds : List (Round V)) (z : Fin P → Fin T → V) : ∀ (y : Fin P → Fin T → V) (p : Fin P) (t : Fin T),
    rayAll (fun p t => z (σ p) t) rds (fun p t => y (σ p) t) p t = rayAll z rds y (σ p) t := by
  induction rds with
  | nil => intro y p t; rfl
  | cons rd rds ih =>
    intro y p t
    unfold rayAll
    rw [← ih]
    congr 1
    funext p t
    unfold rayRound
    dsimp only
    congr 1
    funext i
    exact attn_perm rd.pool σ (fun j => rd.skip.elim (y j i) (fun f => f (z j i) (y j i))) p

theorem rayAll_pts {P T : Nat} (σ : Equiv.Perm (Fin T)) (rds : List (Round V)) (z : Fin P → Fin T → V) : ∀ (y : Fin P → Fin T → V) (p : Fin P) (t : Fin T),
    rayAll (fun p t => z p (σ t)) rds (fun p t => y p (σ t)) p t = rayAll z rds y p (σ t) := by
  induction rds with
  | nil => intro y p t; rfl
  | cons rd rds ih =>
    intro y p t
    unfold rayAll
    rw [← ih]
    congr 1
    funext p t
    unfold rayRound
    dsimp only
    exact attn_perm rd.ray σ (fun j => attn rd.pool (fun i => rd.skip.elim (y i j) (fun f => f (z i j) (y i j))) p) t

/-- The pooling over sources, `decoding_functions.py:421-422`: weights are the softmax over the sources of the first channel; `chan` reads a channel. -/
noncomputable def poolOut (chan : V → Nat → ℝ) {P : Nat} (y : Fin P → V) (k : Nat) : ℝ :=
  ∑ p, chan (y p) k * (Real.exp (chan (y p) 0) / ∑ p', Real.exp (chan (y p') 0))

/-- The encoder of NeRFormer at one point before the last linear layer. -/
noncomputable def nerformer (chan : V → Nat → ℝ) (B P R T : Nat) (rds : List (Round V)) (z y : Nat → Nat → Nat → Nat → V) (b r t k : Nat) : ℝ :=
  poolOut chan (fun p : Fin P => transform B P R T rds z y b p r t) k

/-- **The order of the source views does not matter**: sources permuted alike in input and skip tensor give the same features. -/
theorem nerformer_views (chan : V → Nat → ℝ) (B P R T : Nat) (rds : List (Round V)) (z y z' y' : Nat → Nat → Nat → Nat → V) (σ : Equiv.Perm (Fin P))
    (hz : ∀ b (p : Fin P) r t, z' b p r t = z b (σ p) r t) (hy : ∀ b (p : Fin P) r t, y' b p r t = y b (σ p) r t)
    (b r t k : Nat) (hb : b < B) (hr : r < R) (ht : t < T) :
    nerformer chan B P R T rds z' y' b r t k = nerformer chan B P R T rds z y b r t k := by
  have h : ∀ p : Fin P, transform B P R T rds z' y' b p r t = transform B P R T rds z y b (σ p) r t := by
    intro p
    have h1 := transform_ray B P R T rds z' y' b r hb hr p ⟨t, ht⟩
    have h2 := transform_ray B P R T rds z y b r hb hr (σ p) ⟨t, ht⟩
    simp only at h1 h2
    rw [h1, h2, ← rayAll_pool σ]
    simp only [hz, hy]
  unfold nerformer poolOut
  simp only [h]
  rw [Equiv.sum_comp σ (fun p => Real.exp (chan (transform B P R T rds z y b p r t) 0))]
  exact Equiv.sum_comp σ (fun p => chan (transform B P R T rds z y b p r t) k *
    (Real.exp (chan (transform B P R T rds z y b p r t) 0) / ∑ p' : Fin P, Real.exp (chan (transform B P R T rds z y b p' r t) 0)))

/-- Two sources exchanged. -/
example (chan : ℝ → Nat → ℝ) (rds : List (Round ℝ)) (x : Nat → Nat → Nat → Nat → ℝ) (k : Nat) :
    nerformer chan 2 2 3 4 rds (fun b p r t => x b (1 - p) r t) (fun b p r t => x b (1 - p) r t) 1 2 3 k = nerformer chan 2 2 3 4 rds x x 1 2 3 k := by
  have h : ∀ b (p : Fin 2) r t, (fun b p r t => x b (1 - p) r t) b p r t = x b (Equiv.swap (0 : Fin 2) 1 p) r t := by
    intro b p r t
    fin_cases p <;> rfl
  exact nerformer_views chan 2 2 3 4 rds x x _ _ (Equiv.swap 0 1) h h 1 2 3 k (by norm_num) (by norm_num) (by norm_num)

/-- **The order of the points on a ray matters only through the points themselves**: the transformer has no positions of its own. -/
theorem nerformer_points (chan : V → Nat → ℝ) (B P R T : Nat) (rds : List (Round V)) (z y z' y' : Nat → Nat → Nat → Nat → V) (σ : Equiv.Perm (Fin T))
    (hz : ∀ b p r (t : Fin T), z' b p r t = z b p r (σ t)) (hy : ∀ b p r (t : Fin T), y' b p r t = y b p r (σ t))
    (b r k : Nat) (t : Fin T) (hb : b < B) (hr : r < R) :
    nerformer chan B P R T rds z' y' b r t k = nerformer chan B P R T rds z y b r (σ t) k := by
  have h : ∀ p : Fin P, transform B P R T rds z' y' b p r t = transform B P R T rds z y b p r (σ t) := by
    intro p
    rw [transform_ray B P R T rds z' y' b r hb hr p t, transform_ray B P R T rds z y b r hb hr p (σ t), ← rayAll_pts σ]
    simp only [hz, hy]
  unfold nerformer
  simp only [h]

/-- **Rays and batch elements do not influence each other.** -/
theorem nerformer_local (chan : V → Nat → ℝ) (B P R T : Nat) (rds : List (Round V)) (z y z' y' : Nat → Nat → Nat → Nat → V) (b r t k : Nat) (hb : b < B) (hr : r < R) (ht : t < T)
    (hz : ∀ p t, p < P → t < T → z' b p r t = z b p r t) (hy : ∀ p t, p < P → t < T → y' b p r t = y b p r t) :
    nerformer chan B P R T rds z' y' b r t k = nerformer chan B P R T rds z y b r t k := by
  have h : ∀ p : Fin P, transform B P R T rds z' y' b p r t = transform B P R T rds z y b p r t := by
    intro p
    have h1 := transform_ray B P R T rds z' y' b r hb hr p ⟨t, ht⟩
    have h2 := transform_ray B P R T rds z y b r hb hr p ⟨t, ht⟩
    simp only at h1 h2
    rw [h1, h2]
    congr 1
    · funext p t; exact hz p t p.isLt t.isLt
    · funext p t; exact hy p t p.isLt t.isLt
  unfold nerformer
  simp only [h]

/-- **The pooled value is an average of the sources**: it lies between bounds of the sources' values. -/
theorem poolOut_between (chan : V → Nat → ℝ) {P : Nat} (hP : 0 < P) (y : Fin P → V) (k : Nat) (lo hi : ℝ) (h : ∀ p, lo ≤ chan (y p) k ∧ chan (y p) k ≤ hi) :
    lo ≤ poolOut chan y k ∧ poolOut chan y k ≤ hi := by
  have : Nonempty (Fin P) := ⟨⟨0, hP⟩⟩
  have hs : 0 < ∑ p', Real.exp (chan (y p') 0) := Finset.sum_pos (fun p _ => Real.exp_pos _) Finset.univ_nonempty
  have e : poolOut chan y k = (∑ p, chan (y p) k * Real.exp (chan (y p) 0)) / ∑ p', Real.exp (chan (y p') 0) := by
    unfold poolOut
    rw [Finset.sum_div]
    exact Finset.sum_congr rfl fun p _ => by rw [mul_div_assoc]
  rw [e, le_div_iff₀ hs, div_le_iff₀ hs, Finset.mul_sum, Finset.mul_sum]
  exact ⟨Finset.sum_le_sum fun p _ => mul_le_mul_of_nonneg_right (h p).1 (Real.exp_pos _).le,
    Finset.sum_le_sum fun p _ => mul_le_mul_of_nonneg_right (h p).2 (Real.exp_pos _).le⟩

/-- One source: nothing to average. -/
theorem poolOut_one (chan : V → Nat → ℝ) (y : Fin 1 → V) (k : Nat) : poolOut chan y k = chan (y 0) k := by
  unfold poolOut
  simp only [Finset.univ_unique, Fin.default_eq_zero, Finset.sum_singleton]
  rw [div_self (Real.exp_pos _).ne', mul_one]

end tr

/-! ## Widths of the transformer -/

/-- `torch.nn.MultiheadAttention(d, 4)` requires a positive multiple of four. -/
def headsOk (d : Nat) : Bool := decide (0 < d) && decide (d % 4 = 0)

/-- `__init__`, `decoding_functions.py:332-350`, with `dim i = int(round(hidden_dim / dim_down_factor ** i))`: the layers of round `i` have `d_model` `dim i` and `dim (i + 1)`. -/
def buildTr (dim : Nat → Nat) (n : Nat) : Except Err Unit :=
  if (List.range n).all (fun i => headsOk (dim i) && headsOk (dim (i + 1))) then .ok () else .error .shape

/-- The width after an encoder layer (`decoding_functions.py:484-490`): `src[..., :d_out] + src2[..., :d_out]`. -/
def layerWidth (d out w : Nat) : Except Err Nat :=
  if w ≠ d then .error .shape else if min d out = out then .ok out else .error .shape

/-- The widths through the rounds from number `i` on. -/
def runWidth (dim : Nat → Nat) : Nat → Nat → Nat → Except Err Nat
  | 0, _, w => .ok w
  | n + 1, i, w => match layerWidth (dim i) (dim (i + 1)) w with
    | .error e => .error e
    | .ok w1 => match layerWidth (dim (i + 1)) (dim (i + 1)) w1 with
      | .error e => .error e
      | .ok w2 => runWidth dim n (i + 1) w2

/-- **Which transformers can be built**: all widths are positive multiples of the four heads. -/
theorem buildTr_ok (dim : Nat → Nat) (n : Nat) (hn : 0 < n) : buildTr dim n = .ok () ↔ ∀ i ≤ n, 0 < dim i ∧ dim i % 4 = 0 := by
  unfold buildTr headsOk
  split_ifs with h
  · simp only [List.all_eq_true, List.mem_range, Bool.and_eq_true, decide_eq_true_eq] at h
    refine ⟨fun _ i hi => ?_, fun _ => rfl⟩
    rcases Nat.lt_or_ge i n with h' | h'
    · exact (h i h').1
    · have : i = (n - 1) + 1 := by omega
      rw [this]
      exact (h (n - 1) (by omega)).2
  · constructor
    · intro hh; cases hh
    · intro hh
      exfalso
      apply h
      simp only [List.all_eq_true, List.mem_range, Bool.and_eq_true, decide_eq_true_eq]
      exact fun i hi => ⟨hh i (by omega), hh (i + 1) (by omega)⟩

theorem runWidth_ok (dim : Nat → Nat) : ∀ (n i : Nat), runWidth dim n i (dim i) = if ∀ j < n, dim (i + j + 1) ≤ dim (i + j) then .ok (dim (i + n)) else .error .shape := by
  intro n
  induction n with
  | zero => intro i; simp [runWidth]
  | succ n ih =>
    intro i
    unfold runWidth layerWidth
    rw [if_neg (by simp)]
    by_cases h : dim (i + 1) ≤ dim i
    · rw [if_pos (Nat.min_eq_right h)]
      dsimp only
      rw [if_neg (by simp), if_pos (Nat.min_self _)]
      dsimp only
      rw [ih (i + 1)]
      have : (∀ j < n + 1, dim (i + j + 1) ≤ dim (i + j)) ↔ ∀ j < n, dim (i + 1 + j + 1) ≤ dim (i + 1 + j) := by
        constructor
        · intro hh j hj
          have := hh (j + 1) (by omega)
          rwa [show i + (j + 1) + 1 = i + 1 + j + 1 by omega, show i + (j + 1) = i + 1 + j by omega] at this
        · intro hh j hj
          cases j with
          | zero => exact h
          | succ j =>
            have := hh j (by omega)
            rwa [show i + 1 + j + 1 = i + (j + 1) + 1 by omega, show i + 1 + j = i + (j + 1) by omega] at this
      simp only [this, show i + 1 + n = i + (n + 1) by omega]
    · rw [if_neg (by omega)]
      dsimp only
      rw [if_neg]
      intro hh
      exact h (hh 0 (by omega))

/-- **Which of them run**: exactly those whose widths never grow; with a `dim_down_factor` below one every call fails. -/
theorem transformer_runs (dim : Nat → Nat) (n : Nat) : (∃ w, runWidth dim n 0 (dim 0) = .ok w) ↔ ∀ j < n, dim (j + 1) ≤ dim j := by
  rw [runWidth_ok]
  simp only [Nat.zero_add]
  split_ifs with h
  · exact ⟨fun _ => h, fun _ => ⟨_, rfl⟩⟩
  · refine ⟨?_, fun hh => absurd hh h⟩
    rintro ⟨_, hh⟩
    cases hh

example : buildTr (fun i => [80, 40, 20].getD i 0) 2 = .ok () ∧ runWidth (fun i => [80, 40, 20].getD i 0) 2 0 80 = .ok 20 := by decide
example : buildTr (fun i => [64, 128].getD i 0) 1 = .ok () ∧ runWidth (fun i => [64, 128].getD i 0) 1 0 64 = .error .shape := by decide

end P3D.NerfFields
