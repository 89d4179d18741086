/-
Model of the networks of scene representation networks and of IDR: the LSTM ray marcher, predicted (hyper) layers, and the feature field with skip connections and geometric initialisation.

* `implicitron/models/renderer/lstm_renderer.py:24-191` (LSTMRenderer and its initialisation)
* `implicitron/third_party/hyperlayers.py:137-186` (HyperFC), `189-255` (BatchLinear, HyperLinear)
* `implicitron/third_party/pytorch_prototyping.py:51-84` (FCBlock: widths)
* `implicitron/models/implicit_function/scene_representation_networks.py:29-126`, `129-225`, `228-328` (widths of the three networks)
* `implicitron/models/implicit_function/idr_feature_field.py:21-186` (IdrFeatureField)

One ray (one point) at a time: all operations act on rays (points) separately.  The LSTM cell, activations, norms and sampled initial weights are arguments.  Numbers are elements of an ordered field, ℝ where
the harmonic embedding (`P3D.Harmonic`) is used.  Not modelled: gradients (the clamping hook of the states), layer norm, batches, rounding.
-/
import Verif.Harmonic
import Mathlib.Algebra.Order.Field.Basic
import Mathlib.Algebra.Order.AbsoluteValue.Basic
import Mathlib.Algebra.BigOperators.Group.List.Basic
import Mathlib.Data.List.Range
import Mathlib.Data.List.Chain
import Mathlib.Tactic.Linarith
import Mathlib.Tactic.Ring
import Mathlib.Tactic.NormNum
import Mathlib.Tactic.FieldSimp

set_option linter.unusedSectionVars false

namespace P3D.SrnIdr

inductive Err
  /-- ValueError of the renderer -/
  | value
  /-- RuntimeError: shapes do not fit -/
  | shape
  /-- RuntimeError: a negative width -/
  | negative
  deriving DecidableEq

/-! ### The LSTM ray marcher -/

section Lstm
variable {K F S : Type} [Field K] [LinearOrder K] [IsStrictOrderedRing K]

/-- The loop, `lstm_renderer.py:117-149`, for one ray: `f` the raymarching function at a depth, `cell` the LSTM, `out` the step read from its state.  The result has the depths at which the function was
evaluated, the last depth and the features there. -/
def march (f : K → F) (cell : F → Option S → S) (out : S → K) : Nat → K → Option S → List K × K × F
  | 0, z, _ => ([z], z, f z)
  | n + 1, z, s =>
    let s' := cell (f z) s
    let r := march f cell out n (z + out s') (some s')
    (z :: r.1, r.2)

/-- What the renderer returns for a ray. -/
structure Out (K : Type) where
  color : List K
  depth : K
  mask : K

/-- `torch.lerp(background, features, mask)` with a background of one or as many channels, `lstm_renderer.py:160-162`. -/
def blend (bg : Option (List K)) (c : List K) (m : K) : Except Err (List K) :=
  match bg with
  | none => .ok c
  | some [b] => .ok (c.map fun x => b + m * (x - b))
  | some l => if l.length = c.length then .ok (List.zipWith (fun b x => b + m * (x - b)) l c) else .error .shape

/-- `LSTMRenderer.forward`, `lstm_renderer.py:74-168`, for one ray: `nFun` implicit functions, the depths of the bundle, random offset, pixel generator, sigmoid, length of the direction. -/
def render (nFun steps : Nat) (lengths : List K) (noise std dirNorm : K) (f : K → F) (cell : F → Option S → S) (out : S → K) (gen : F → K × List K) (sig : K → K) (bg : Option (List K)) : Except Err (Out K) :=
  if nFun ≠ 1 then .error .value
  else match lengths with
    | [z] => do
      let r := march f cell out steps (z + noise * std + 0) none
      let g := gen r.2.2
      let m := sig g.1
      let c ← blend bg g.2 m
      pure ⟨c, r.2.1 * dirNorm, m⟩
    | _ => .error .value

/-- The output layer, `lstm_renderer.py:68-72`: weights times the hidden state plus the bias `init_depth / num_raymarch_steps`. -/
def outLayer (w : List K) (initDepth : K) (steps : Nat) (h : List K) : K := (List.zipWith (· * ·) w h).sum + initDepth / steps

/-- `_lstm_forget_gate_init` on a bias, `lstm_renderer.py:184-191`. -/
def forgetInit (p : List K) : List K := p.mapIdx fun j x => if p.length / 4 ≤ j ∧ j < p.length / 2 then 1 else x

/-- Classes of modules, for the type test of `_init_recurrent_weights`, `lstm_renderer.py:171-181`. -/
inductive Kind | gru | lstm | rnn | lstmCell
  deriving DecidableEq

/-- `_init_recurrent_weights` on a bias of a module: `type(m) in [GRU, LSTM, RNN]`. -/
def recurrentInit (k : Kind) (p : List K) : List K := if k ∈ [Kind.gru, Kind.lstm, Kind.rnn] then p.map fun _ => 0 else p

end Lstm

/-! ### Predicted layers -/

section Hyper
variable {K : Type} [Field K]

/-- `HyperLinear.forward` and `BatchLinear.forward`, `hyperlayers.py:243-255` and `207-214`: the layer which the parameters `p` describe, applied to `x`. -/
def hyperLinear (inCh outCh : Nat) (p : Nat → K) (x : Nat → K) (o : Nat) : K := ((List.range inCh).map fun i => x i * p (o * inCh + i)).sum + p (inCh * outCh + o)

/-- Widths of the layers of `HyperFC` and of `FCBlock`, `hyperlayers.py:166-175` and `pytorch_prototyping.py:62-71`. -/
def fcDims (inCh hidden n outCh : Nat) : List (Nat × Nat) := (inCh, hidden) :: (List.replicate n (hidden, hidden) ++ [(hidden, outCh)])

/-- Running layers on a width. -/
def runDims : List (Nat × Nat) → Nat → Except Err Nat
  | [], w => .ok w
  | (a, b) :: l, w => if a = w then runDims l b else .error .shape

/-- Settings of SRNRaymarchFunction and SRNRaymarchHyperNet. -/
structure Ray where
  harmonics : Nat
  hidden : Nat
  layers : Nat
  inF : Nat
  outF : Nat
  latent : Nat

/-- Width of the features of SRNRaymarchFunction, `scene_representation_networks.py:52-69` and `104-124`; `code` is the width of pooled features or of the code which are appended. -/
def rayWidth (r : Ray) (code : Nat) : Except Err Nat := runDims (fcDims (r.inF * (2 * r.harmonics + 1) + r.latent) r.hidden r.layers r.outF) (3 * (2 * r.harmonics + 1) + code)

/-- The same for SRNRaymarchHyperNet, `scene_representation_networks.py:254-271`. -/
def hyperWidth (r : Ray) (code : Nat) : Except Err Nat := runDims (fcDims (r.inF * (2 * r.harmonics + 1) + r.latent) r.hidden r.layers r.hidden) (3 * (2 * r.harmonics + 1) + code)

/-- The pixel generator, `scene_representation_networks.py:138-160` and `204-225`: widths of the colours. -/
def pixelWidth (inF hidden layers harmonics colorHidden outF w : Nat) : Except Err Nat := do
  let h ← runDims (fcDims inF hidden layers hidden) w
  let _ ← runDims [(hidden, 1)] h
  runDims [(hidden + 3 * (2 * harmonics + 1), colorHidden), (colorHidden, outF)] (h + 3 * (2 * harmonics + 1))

/-- One pass of the renderer: features into the LSTM of the given input width, then into the pixel generator. -/
def srnWidth (w : Except Err Nat) (lstmIn inF hidden layers harmonics colorHidden outF : Nat) : Except Err Nat := do
  let w ← w
  let _ ← runDims [(lstmIn, 1)] w
  pixelWidth inF hidden layers harmonics colorHidden outF w

end Hyper

/-! ### The feature field of IDR -/

/-- Settings, `idr_feature_field.py:57-67`; `harmonics` is none for −1. -/
structure Idr where
  fvs : Nat
  dIn : Nat
  dOut : Nat
  dims : List Nat
  skip : List Nat
  harmonics : Option Nat
  pooled : Nat
  enc : Nat

/-- `dims[0]`, `idr_feature_field.py:70-81`. -/
def Idr.d0 (c : Idr) : Nat := (match c.harmonics with | none => c.dIn | some n => 3 * (2 * n + 1)) + c.pooled + c.enc

/-- The list `dims`. -/
def Idr.all (c : Idr) : List Nat := c.d0 :: (c.dims ++ [c.dOut + c.fvs])

/-- The output width of layer `i` if the next entry of `dims` is `b`, `idr_feature_field.py:88-91`. -/
def outW (skip : List Nat) (d0 i b : Nat) : Except Err Nat := if i + 1 ∈ skip then (if b < d0 then .error .negative else .ok (b - d0)) else .ok b

/-- The layers, `idr_feature_field.py:87-93`: widths of the layers from number `i` on, `a` and `l` the rest of `dims`. -/
def layersFrom (skip : List Nat) (d0 : Nat) : Nat → Nat → List Nat → Except Err (List (Nat × Nat))
  | _, _, [] => .ok []
  | i, a, b :: l => do
    let o ← outW skip d0 i b
    let r ← layersFrom skip d0 (i + 1) b l
    pure ((a, o) :: r)

def Idr.build (c : Idr) : Except Err (List (Nat × Nat)) := layersFrom c.skip c.d0 0 c.d0 (c.dims ++ [c.dOut + c.fvs])

/-- The layers on an embedding of width `e`, `idr_feature_field.py:173-184`: `w` the current width. -/
def runSkip (skip : List Nat) (e : Nat) : Nat → List (Nat × Nat) → Nat → Except Err Nat
  | _, [], w => .ok w
  | i, (a, b) :: l, w => if a = (if i ∈ skip then w + e else w) then runSkip skip e (i + 1) l b else .error .shape

/-- `forward`, `idr_feature_field.py:126-186`: number of rows and width of the result for `pts` points, with pooled features and code of the given widths. -/
def Idr.forward (c : Idr) (pts : Nat) (pool code : Option Nat) : Except Err (Nat × Nat) := do
  let ls ← c.build
  if pts = 0 ∨ (c.harmonics = none ∧ pool = none ∧ code = none) then pure (0, (ls.getLast?.map (·.2)).getD 0)
  else
    let e := (match c.harmonics with | none => 0 | some n => 3 * (2 * n + 1)) + pool.getD 0 + code.getD 0
    let w ← runSkip c.skip e 0 ls e
    pure (pts, w)

/-! Geometric initialisation, `idr_feature_field.py:95-113`. -/

section Init
variable {K : Type} [Field K]

/-- Start of the Python slice `[-k:]` of a sequence of length `n`; `[-0:]` is the whole sequence. -/
def sliceStart (n k : Nat) : Nat := if k = 0 then 0 else n - k

/-- `row[start:] = 0`. -/
def zeroFrom (start : Nat) (row : List K) : List K := row.take start ++ List.replicate (row.length - start) 0

/-- A row of the first layer, `idr_feature_field.py:103-106`. -/
def firstRow (row : List K) : List K := zeroFrom 3 row

/-- A row of a layer in skip_in, `idr_feature_field.py:107-110`. -/
def skipRow (d0 : Nat) (row : List K) : List K := zeroFrom (sliceStart row.length (d0 - 3)) row

/-- `nn.utils.weight_norm` of a row with the initial gain, the norm of the row: none where it divides by zero. -/
def weightNorm [DecidableEq K] (norm : List K → K) (row : List K) : Option (List K) := if norm row = 0 then none else some (row.map fun x => x * (norm row / norm row))

/-- A layer of the network: in skip_in or not, sampled rows, biases. -/
structure Layer (K : Type) where
  skip : Bool
  rows : List (List K)
  bias : List K

def dot (r x : List K) : K := (List.zipWith (· * ·) r x).sum

/-- The rows after initialisation: the last layer is kept, the first and the skip layers are cut. -/
def initRows (d0 : Nat) (first last : Bool) (l : Layer K) : List (List K) := if last then l.rows else if first then l.rows.map firstRow else if l.skip then l.rows.map (skipRow d0) else l.rows

/-- The network at initialisation, `idr_feature_field.py:169-186`: embedding `e`, current value `x`; `scale` is `/ 2**0.5`, `act` the activation. -/
def netInit (d0 : Nat) (scale act : K → K) (e : List K) : Bool → List (Layer K) → List K → List K
  | _, [], x => x
  | first, l :: ls, x =>
    let inp := if l.skip then (x ++ e).map scale else x
    let y := List.zipWith (fun r b => dot r inp + b) (initRows d0 first ls.isEmpty l) l.bias
    netInit d0 scale act e false ls (if ls.isEmpty then y else y.map act)

/-- Widths fit, and skip layers are neither the first nor the last. -/
def Fits (d0 : Nat) : Bool → List (Layer K) → Nat → Prop
  | _, [], _ => True
  | first, l :: ls, w => (l.skip = true → first = false ∧ ls ≠ []) ∧ l.rows.length = l.bias.length ∧ (∀ r ∈ l.rows, r.length = if l.skip then w + d0 else w) ∧ Fits d0 false ls l.rows.length

end Init

/-! ### The ray marcher: theorems -/

section LstmThm
variable {K F S : Type} [Field K] [LinearOrder K] [IsStrictOrderedRing K]

/-- **The function is evaluated once per step and once at the end**, at the first depth first, and at the depth which is returned last. -/
theorem march_evals (f : K → F) (cell : F → Option S → S) (out : S → K) (n : Nat) (z : K) (s : Option S) : (march f cell out n z s).1.length = n + 1 ∧ (march f cell out n z s).1.head? = some z ∧
    (march f cell out n z s).1.getLast? = some (march f cell out n z s).2.1 ∧ (march f cell out n z s).2.2 = f (march f cell out n z s).2.1 := by
  induction n generalizing z s with
  | zero => exact ⟨rfl, rfl, rfl, rfl⟩
  | succ n ih =>
    obtain ⟨h1, _, h3, h4⟩ := ih (z + out (cell (f z) s)) (some (cell (f z) s))
    refine ⟨by simp only [march, List.length_cons, h1], rfl, ?_, h4⟩
    simp only [march]
    rw [List.getLast?_cons, h3]
    rfl

/-- **How far a ray is marched**: if every step is within `d` of `b`, the last depth is within `n d` of `n b` behind the first. -/
theorem march_far (f : K → F) (cell : F → Option S → S) (out : S → K) (b d : K) (h : ∀ x s, |out (cell x s) - b| ≤ d) (n : Nat) (z : K) (s : Option S) : |(march f cell out n z s).2.1 - (z + n * b)| ≤ n * d := by
  induction n generalizing z s with
  | zero => simp [march]
  | succ n ih =>
    have h1 := ih (z + out (cell (f z) s)) (some (cell (f z) s))
    have h2 := h (f z) s
    simp only [march]
    push_cast
    rw [abs_le] at h1 h2 ⊢
    constructor <;> linarith [h1.1, h1.2, h2.1, h2.2]

theorem dot_bound (w h : List K) (hh : ∀ x ∈ h, |x| ≤ 1) : |(List.zipWith (· * ·) w h).sum| ≤ (w.map (|·|)).sum := by
  induction w generalizing h with
  | nil => simp
  | cons a w ih =>
    cases h with
    | nil =>
      simp only [List.zipWith_nil_right, List.sum_nil, abs_zero]
      exact List.sum_nonneg fun x hx => by
        obtain ⟨y, _, rfl⟩ := List.mem_map.1 hx
        exact abs_nonneg y
    | cons x h =>
      simp only [List.zipWith_cons_cons, List.sum_cons, List.map_cons]
      refine le_trans (abs_add_le _ _) (add_le_add ?_ (ih h fun y hy => hh y (by simp [hy])))
      rw [abs_mul]
      have := mul_le_mul_of_nonneg_left (hh x (by simp)) (abs_nonneg a)
      linarith

/-- **A new renderer marches to init_depth**: hidden states of an LSTM are in [−1, 1], so the last depth differs from the first plus `init_depth` by at most the steps times the sum of the weights of the output
layer (which are drawn small), whatever the implicit function is. -/
theorem march_init (f : K → F) (cell : F → Option (List K) → List K) (hc : ∀ x s, ∀ y ∈ cell x s, |y| ≤ 1) (w : List K) (initDepth : K) (steps : Nat) (hs : 0 < steps) (z : K) :
    |(march f cell (outLayer w initDepth steps) steps z none).2.1 - (z + initDepth)| ≤ steps * (w.map (|·|)).sum := by
  have := march_far f cell (outLayer w initDepth steps) (initDepth / steps) (w.map (|·|)).sum (fun x s => by
    unfold outLayer
    rw [add_sub_cancel_right]
    exact dot_bound w _ (hc x s)) steps z none
  rwa [mul_div_cancel₀] at this
  exact Nat.cast_ne_zero.2 (by omega)

/-- **The output of the renderer**: exactly one function and one depth per ray are accepted; then depth is the marched depth times the length of the direction and the colour is between the background and the
generated one. -/
theorem render_spec (nFun steps : Nat) (lengths : List K) (noise std dirNorm : K) (f : K → F) (cell : F → Option S → S) (out : S → K) (gen : F → K × List K) (sig : K → K) (bg : Option (List K)) (o : Out K)
    (h : render nFun steps lengths noise std dirNorm f cell out gen sig bg = .ok o) : nFun = 1 ∧ ∃ z, lengths = [z] ∧
      o.depth = (march f cell out steps (z + noise * std) none).2.1 * dirNorm ∧
      o.mask = sig (gen (f (march f cell out steps (z + noise * std) none).2.1)).1 ∧
      blend bg (gen (f (march f cell out steps (z + noise * std) none).2.1)).2 o.mask = .ok o.color := by
  unfold render at h
  split at h
  · cases h
  · rename_i h1
    refine ⟨not_not.1 h1, ?_⟩
    split at h
    · rename_i z
      simp only [bind, Except.bind, add_zero] at h
      cases hb : blend bg (gen (march f cell out steps (z + noise * std) none).2.2).2 (sig (gen (march f cell out steps (z + noise * std) none).2.2).1) with
      | error e => rw [hb] at h; cases h
      | ok c =>
        rw [hb] at h
        cases h
        have e := (march_evals f cell out steps (z + noise * std) none).2.2.2
        rw [e] at hb
        refine ⟨z, rfl, rfl, ?_, ?_⟩
        · simp only [e]
        · simp only [e]
          exact hb
    · cases h

/-- **The background**: with mask 0 a channel is the background, with mask 1 the colour, in between it is between; without background the mask has no influence. -/
theorem blend_spec (b x m : K) (hm : 0 ≤ m ∧ m ≤ 1) : blend (some [b]) [x] 0 = .ok [b] ∧ blend (some [b]) [x] 1 = .ok [x] ∧ (∀ y, blend (some [b]) [x] m = .ok [y] → min b x ≤ y ∧ y ≤ max b x) ∧ (∀ c : List K, blend none c m = .ok c) := by
  refine ⟨by simp [blend], by simp [blend], ?_, fun c => rfl⟩
  intro y hy
  simp only [blend, List.map_cons, List.map_nil, Except.ok.injEq, List.cons.injEq, and_true] at hy
  subst hy
  rcases le_total b x with h | h
  · rw [min_eq_left h, max_eq_right h]
    constructor <;> nlinarith [mul_nonneg hm.1 (sub_nonneg.2 h), mul_nonneg (sub_nonneg.2 hm.2) (sub_nonneg.2 h)]
  · rw [min_eq_right h, max_eq_left h]
    constructor <;> nlinarith [mul_nonneg hm.1 (sub_nonneg.2 h), mul_nonneg (sub_nonneg.2 hm.2) (sub_nonneg.2 h)]

/-- **A background of another length** than one or the number of channels is an error. -/
theorem blend_length (l c : List K) (m : K) (h1 : l.length ≠ 1) (h2 : l.length ≠ c.length) : blend (some l) c m = .error .shape := by
  unfold blend
  split
  · cases ‹_›
  · rename_i h; cases h; simp at h1
  · rename_i h; cases h; rw [if_neg h2]

/-- **The initial bias of the gates**: of the biases of a cell with `h` hidden values, in the order input, forget, cell, output gate, exactly those of the forget gate become one, in both bias vectors, so the
forget gate has two in total. -/
theorem forgetInit_spec (h : Nat) (p : List K) (hp : p.length = 4 * h) (j : Nat) (hj : j < p.length) : (forgetInit p)[j]? = some (if j / h = 1 then 1 else p[j]) := by
  have h0 : 0 < h := by omega
  unfold forgetInit
  rw [List.getElem?_mapIdx, List.getElem?_eq_getElem hj]
  simp only [Option.map_some, hp]
  have e1 : 4 * h / 4 = h := by omega
  have e2 : 4 * h / 2 = 2 * h := by omega
  rw [e1, e2]
  have : (j / h = 1) ↔ (h ≤ j ∧ j < 2 * h) := by
    rw [Nat.div_eq_iff h0]
    omega
  by_cases hc : h ≤ j ∧ j < 2 * h
  · rw [if_pos hc, if_pos (this.2 hc)]
  · rw [if_neg hc, if_neg (fun e => hc (this.1 e))]

/-- **The recurrent initialisation does nothing** for the cell it is applied to. -/
theorem recurrent_nothing (p : List K) : recurrentInit .lstmCell p = p ∧ recurrentInit .lstm p = p.map fun _ => 0 := by
  constructor <;> simp [recurrentInit]

end LstmThm

example : (march (fun z : ℚ => z) (fun x _ => x) (fun _ => 2) 3 1 none) = ([1, 3, 5, 7], 7, 7) := by norm_num [march]
example : forgetInit ([5, 5, 5, 5, 5, 5, 5, 5] : List ℚ) = [5, 5, 1, 1, 5, 5, 5, 5] := by decide +kernel

/-! ### Predicted layers: theorems -/

section HyperThm
variable {K : Type} [Field K]

/-- Parameters for given weights and biases. -/
def pack (inCh outCh : Nat) (w : Nat → Nat → K) (b : Nat → K) (j : Nat) : K := if j < inCh * outCh then w (j / inCh) (j % inCh) else b (j - inCh * outCh)

/-- **Every linear layer can be predicted**: the `in * out + out` parameters are the weights, row by row, then the biases, each used once. -/
theorem hyperLinear_pack (inCh outCh : Nat) (w : Nat → Nat → K) (b : Nat → K) (x : Nat → K) (o : Nat) (ho : o < outCh) : hyperLinear inCh outCh (pack inCh outCh w b) x o = ((List.range inCh).map fun i => x i * w o i).sum + b o := by
  unfold hyperLinear
  congr 1
  · congr 1
    refine List.map_congr_left fun i hi => ?_
    have hi := List.mem_range.1 hi
    have h1 : o * inCh + i < inCh * outCh := by
      have : (o + 1) * inCh ≤ outCh * inCh := Nat.mul_le_mul_right _ ho
      rw [Nat.succ_mul, Nat.mul_comm outCh] at this
      omega
    have h2 : (o * inCh + i) / inCh = o := by
      rw [Nat.mul_comm, Nat.mul_add_div (by omega), Nat.div_eq_of_lt hi, Nat.add_zero]
    have h3 : (o * inCh + i) % inCh = i := by
      rw [Nat.mul_comm, Nat.mul_add_mod, Nat.mod_eq_of_lt hi]
    rw [pack, if_pos h1, h2, h3]
  · rw [pack, if_neg (by omega), Nat.add_sub_cancel_left]

/-- Different positions of a layer read different parameters, all inside the vector. -/
theorem hyper_positions (inCh outCh o o' i i' : Nat) (ho : o < outCh) (ho' : o' < outCh) (hi : i < inCh) (hi' : i' < inCh) : (o * inCh + i = o' * inCh + i' → o = o' ∧ i = i') ∧ o * inCh + i < inCh * outCh ∧ inCh * outCh + o < inCh * outCh + outCh := by
  refine ⟨fun h => ?_, ?_, by omega⟩
  · have h1 : (o * inCh + i) / inCh = o := by rw [Nat.mul_comm, Nat.mul_add_div (by omega), Nat.div_eq_of_lt hi, Nat.add_zero]
    have h2 : (o' * inCh + i') / inCh = o' := by rw [Nat.mul_comm, Nat.mul_add_div (by omega), Nat.div_eq_of_lt hi', Nat.add_zero]
    have h3 : o = o' := by rw [← h1, h, h2]
    subst h3
    exact ⟨rfl, by omega⟩
  · have : (o + 1) * inCh ≤ outCh * inCh := Nat.mul_le_mul_right _ ho
    rw [Nat.succ_mul, Nat.mul_comm outCh] at this
    omega

/-- **The layers of a fully connected block fit together**: the block accepts exactly its input width and returns its output width. -/
theorem fcDims_run (a h n b w : Nat) : runDims (fcDims a h n b) w = if a = w then .ok b else .error .shape := by
  have key : ∀ n, runDims (List.replicate n (h, h) ++ [(h, b)]) h = .ok b := by
    intro n
    induction n with
    | zero => simp [runDims]
    | succ n ih => rw [List.replicate_succ, List.cons_append, runDims, if_pos rfl, ih]
  rw [fcDims, runDims, key]

/-- A block has its hidden layers between an input and an output layer. -/
theorem fcDims_layers (a h n b : Nat) : (fcDims a h n b).length = n + 2 ∧ (fcDims a h n b).head? = some (a, h) ∧ (fcDims a h n b).getLast? = some (h, b) ∧
    ∀ i, 1 ≤ i → i ≤ n → (fcDims a h n b)[i]? = some (h, h) := by
  unfold fcDims
  refine ⟨by simp, by simp, by simp [List.getLast?_cons], ?_⟩
  intro i h1 h2
  obtain ⟨i, rfl⟩ : ∃ j, i = j + 1 := ⟨i - 1, by omega⟩
  rw [List.getElem?_cons_succ, List.getElem?_append_left (by simp; omega)]
  simp [List.getElem?_replicate]
  omega

/-- **Widths of the raymarching networks**: for three coordinates and the latent width that is appended, SRNRaymarchFunction returns `out_features` values, SRNRaymarchHyperNet `n_hidden_units`, whatever
`out_features` says. -/
theorem ray_width (r : Ray) (h3 : r.inF = 3) : rayWidth r r.latent = .ok r.outF ∧ hyperWidth r r.latent = .ok r.hidden := by
  simp only [rayWidth, hyperWidth, fcDims_run, h3, if_true, and_self]

/-- A latent width that does not fit what is appended, or other than three coordinates without compensation, is an error. -/
theorem ray_mismatch (r : Ray) (code : Nat) (h3 : r.inF = 3) (hc : code ≠ r.latent) : rayWidth r code = .error .shape ∧ hyperWidth r code = .error .shape := by
  simp only [rayWidth, hyperWidth, fcDims_run, h3]
  have : ¬ (3 * (2 * r.harmonics + 1) + r.latent = 3 * (2 * r.harmonics + 1) + code) := by omega
  rw [if_neg this, if_neg this]
  exact ⟨rfl, rfl⟩

theorem pixel_width (inF hidden layers harmonics colorHidden outF w : Nat) : pixelWidth inF hidden layers harmonics colorHidden outF w = if inF = w then .ok outF else .error .shape := by
  unfold pixelWidth
  rw [fcDims_run]
  split
  · simp [runDims, bind, Except.bind]
  · rfl

/-- **When a scene representation network runs**: exactly if the width of the features equals the input widths of the LSTM and of the pixel generator. -/
theorem srn_runs (w lstmIn inF hidden layers harmonics colorHidden outF : Nat) : srnWidth (.ok w) lstmIn inF hidden layers harmonics colorHidden outF = if lstmIn = w ∧ inF = w then .ok outF else .error .shape := by
  unfold srnWidth
  simp only [bind, Except.bind, runDims, pixel_width]
  by_cases h1 : lstmIn = w <;> by_cases h2 : inF = w <;> simp [h1, h2]

/-- **The hyper network ignores out_features**: settings which work for SRNImplicitFunction fail for SRNHyperNetImplicitFunction as soon as `out_features ≠ n_hidden_units`. -/
theorem hyper_fails (r : Ray) (h3 : r.inF = 3) (hne : r.outF ≠ r.hidden) (hidden layers harmonics colorHidden outF : Nat) :
    srnWidth (rayWidth r r.latent) r.outF r.outF hidden layers harmonics colorHidden outF = .ok outF ∧ srnWidth (hyperWidth r r.latent) r.outF r.outF hidden layers harmonics colorHidden outF = .error .shape := by
  rw [(ray_width r h3).1, (ray_width r h3).2, srn_runs, srn_runs, if_pos ⟨rfl, rfl⟩, if_neg (fun h => hne h.1)]
  exact ⟨rfl, rfl⟩

end HyperThm

example : hyperLinear 2 2 (fun j => ([1, 2, 3, 4, 5, 6] : List ℚ).getD j 0) (fun i => ([10, 100] : List ℚ).getD i 0) 1 = 436 := by decide +kernel

/-! ### The feature field: theorems -/

theorem layersFrom_run (skip : List Nat) (d0 : Nat) (l : List Nat) (i a : Nat) (hl : l ≠ []) (hlast : i + l.length ∉ skip) (ls : List (Nat × Nat)) (h : layersFrom skip d0 i a l = .ok ls) (w : Nat)
    (hw : a = if i ∈ skip then w + d0 else w) : ∃ b, l.getLast? = some b ∧ runSkip skip d0 i ls w = .ok b := by
  induction l generalizing i a ls w with
  | nil => exact absurd rfl hl
  | cons b l ih =>
    unfold layersFrom at h
    simp only [bind, Except.bind] at h
    cases ho : outW skip d0 i b with
    | error e => rw [ho] at h; cases h
    | ok o =>
      rw [ho] at h
      simp only at h
      cases hr : layersFrom skip d0 (i + 1) b l with
      | error e => rw [hr] at h; cases h
      | ok r =>
        rw [hr] at h
        cases h
        rw [runSkip, if_pos hw]
        cases l with
        | nil =>
          rw [outW, if_neg (by simpa using hlast)] at ho
          cases ho
          cases hr
          exact ⟨b, rfl, rfl⟩
        | cons c l =>
          have hb : b = if i + 1 ∈ skip then o + d0 else o := by
            unfold outW at ho
            split at ho
            · rename_i hs
              rw [if_pos hs]
              split at ho
              · cases ho
              · cases ho; omega
            · rename_i hs
              rw [if_neg hs]
              cases ho; rfl
          obtain ⟨x, hx, hrun⟩ := ih (i + 1) b (by simp) (by
            have : i + 1 + (c :: l).length = i + (b :: c :: l).length := by simp only [List.length_cons]; omega
            rwa [this]) r hr o hb
          exact ⟨x, by rw [List.getLast?_cons_cons]; exact hx, hrun⟩

/-- **A feature field returns its values for every point**: when points are embedded, the pooled features and the code have the announced widths, and skip_in contains neither the first layer nor the number
of layers, a field that can be built returns `d_out + feature_vector_size` values per point. -/
theorem idr_ok (c : Idr) (n : Nat) (hn : c.harmonics = some n) (pts : Nat) (hp : 0 < pts) (pool code : Option Nat) (hpool : pool.getD 0 = c.pooled) (hcode : code.getD 0 = c.enc) (h0 : 0 ∉ c.skip) (hN : c.dims.length + 1 ∉ c.skip)
    (ls : List (Nat × Nat)) (hb : c.build = .ok ls) : c.forward pts pool code = .ok (pts, c.dOut + c.fvs) := by
  have hd : c.d0 = 3 * (2 * n + 1) + c.pooled + c.enc := by simp only [Idr.d0, hn]
  obtain ⟨b, hl, hr⟩ := layersFrom_run c.skip c.d0 (c.dims ++ [c.dOut + c.fvs]) 0 c.d0 (by simp) (by simpa using hN) ls hb c.d0 (by rw [if_neg h0])
  have hbv : b = c.dOut + c.fvs := by
    rw [List.getLast?_append] at hl
    simpa using hl.symm
  unfold Idr.forward
  simp only [hb, bind, Except.bind, hn, hpool, hcode]
  rw [if_neg (by simp; omega), ← hd, hr, hbv]
  rfl

/-- **When a field can be built**: exactly if every hidden layer in skip_in is at least as wide as the embedding. -/
theorem idr_build (skip : List Nat) (d0 : Nat) (l : List Nat) (i a : Nat) : (∃ ls, layersFrom skip d0 i a l = .ok ls) ↔ ∀ j (hj : j < l.length), i + j + 1 ∈ skip → d0 ≤ l[j] := by
  induction l generalizing i a with
  | nil => exact ⟨fun _ j hj => absurd hj (Nat.not_lt_zero j), fun _ => ⟨[], rfl⟩⟩
  | cons b l ih =>
    unfold layersFrom
    simp only [bind, Except.bind]
    constructor
    · rintro ⟨ls, h⟩ j hj hs
      by_cases hc : i + 1 ∈ skip ∧ b < d0
      · rw [outW, if_pos hc.1, if_pos hc.2] at h; cases h
      · cases j with
        | zero =>
          by_contra hlt
          exact hc ⟨hs, not_le.1 hlt⟩
        | succ j =>
          refine (ih (i + 1) b).1 ?_ j (by simpa using hj) (by
            have : i + 1 + j + 1 = i + (j + 1) + 1 := by omega
            rwa [this])
          cases hr : layersFrom skip d0 (i + 1) b l with
          | ok r => exact ⟨r, rfl⟩
          | error e =>
            exfalso
            rw [hr] at h
            cases ho : outW skip d0 i b with
            | error e' => rw [ho] at h; cases h
            | ok o => rw [ho] at h; cases h
    · intro h
      obtain ⟨r, hr⟩ := (ih (i + 1) b).2 (fun j hj hs => by
        have := h (j + 1) (by simpa using hj) (by
          have : i + (j + 1) + 1 = i + 1 + j + 1 := by omega
          rwa [this])
        simpa using this)
      rw [hr]
      by_cases hs : i + 1 ∈ skip
      · have := h 0 (by simp) hs
        rw [outW, if_pos hs, if_neg (by simpa using this)]
        exact ⟨_, rfl⟩
      · rw [outW, if_neg hs]
        exact ⟨_, rfl⟩

/-- **The first layer cannot be in skip_in**: the input would be as wide as two embeddings. -/
theorem idr_skip_first (c : Idr) (n : Nat) (hn : c.harmonics = some n) (pts : Nat) (hp : 0 < pts) (pool code : Option Nat) (hpool : pool.getD 0 = c.pooled) (hcode : code.getD 0 = c.enc) (h0 : 0 ∈ c.skip)
    (ls : List (Nat × Nat)) (hb : c.build = .ok ls) : c.forward pts pool code = .error .shape := by
  have hd : c.d0 = 3 * (2 * n + 1) + c.pooled + c.enc := by simp only [Idr.d0, hn]
  have hls : ∃ o r, ls = (c.d0, o) :: r := by
    unfold Idr.build at hb
    cases hl : c.dims ++ [c.dOut + c.fvs] with
    | nil => simp at hl
    | cons b l =>
      rw [hl] at hb
      unfold layersFrom at hb
      simp only [bind, Except.bind] at hb
      split at hb
      · cases hb
      · split at hb
        · cases hb
        · cases hb; exact ⟨_, _, rfl⟩
  obtain ⟨o, r, rfl⟩ := hls
  unfold Idr.forward
  simp only [hb, bind, Except.bind, hn, hpool, hcode]
  rw [if_neg (by simp; omega), ← hd, runSkip, if_pos h0, if_neg (by rw [hd]; omega)]

/-- **Without embedding there are no values**: for `n_harmonic_functions_xyz = -1` without pooled features and code the result has no rows, for any number of points; the coordinates are documented to be used
as they are. -/
theorem idr_raw (c : Idr) (hn : c.harmonics = none) (pts : Nat) (ls : List (Nat × Nat)) (hb : c.build = .ok ls) : ∃ w, c.forward pts none none = .ok (0, w) := by
  unfold Idr.forward
  simp only [hb, bind, Except.bind, hn]
  rw [if_pos (Or.inr ⟨trivial, trivial, trivial⟩)]
  exact ⟨_, rfl⟩

/-- **And with a code or pooled features it fails**: the first layer expects the coordinates, which are not passed on. -/
theorem idr_raw_code (c : Idr) (hn : c.harmonics = none) (hin : 0 < c.dIn) (pts : Nat) (hp : 0 < pts) (pool code : Option Nat) (hsome : ¬ (pool = none ∧ code = none)) (hpool : pool.getD 0 = c.pooled) (hcode : code.getD 0 = c.enc)
    (h0 : 0 ∉ c.skip) (ls : List (Nat × Nat)) (hb : c.build = .ok ls) : c.forward pts pool code = .error .shape := by
  have hd : c.d0 = c.dIn + c.pooled + c.enc := by simp only [Idr.d0, hn]
  have hls : ∃ o r, ls = (c.d0, o) :: r := by
    unfold Idr.build at hb
    cases hl : c.dims ++ [c.dOut + c.fvs] with
    | nil => simp at hl
    | cons b l =>
      rw [hl] at hb
      unfold layersFrom at hb
      simp only [bind, Except.bind] at hb
      split at hb
      · cases hb
      · split at hb
        · cases hb
        · cases hb; exact ⟨_, _, rfl⟩
  obtain ⟨o, r, rfl⟩ := hls
  unfold Idr.forward
  simp only [hb, bind, Except.bind, hn, hpool, hcode]
  rw [if_neg (by
    rintro (h | h)
    · omega
    · exact hsome h.2), runSkip, if_neg h0, if_neg (by rw [hd]; omega)]

example : (Idr.mk 3 3 1 [16, 16] [1] (some 0) 0 2).forward 7 none (some 2) = .ok (7, 4) ∧ (Idr.mk 3 3 1 [16, 16] [0] (some 0) 0 0).forward 7 none none = .error .shape ∧
    (Idr.mk 3 3 1 [16, 16] [] none 0 0).forward 7 none none = .ok (0, 4) ∧ (Idr.mk 3 3 1 [16, 16] [3] (some 0) 0 0).forward 7 none none = .ok (7, 1) := by decide

/-! Initialisation -/

section InitThm
variable {K : Type} [Field K]

theorem zeroFrom_length (s : Nat) (r : List K) : (zeroFrom s r).length = r.length := by
  simp only [zeroFrom, List.length_append, List.length_take, List.length_replicate]
  omega

/-- **The columns which geometric initialisation keeps**: in the first layer the first three; in a skip layer all but the last `d0 - 3`, except that for `d0 = 3`, an embedding which is just the point, none is
kept: the slice `[-0:]` is everything. -/
theorem init_columns (d0 : Nat) (r : List K) (hr : d0 ≤ r.length) : (3 < d0 → skipRow d0 r = r.take (r.length - d0 + 3) ++ List.replicate (d0 - 3) 0) ∧ (d0 = 3 → skipRow d0 r = List.replicate r.length 0) ∧
    (3 ≤ r.length → firstRow r = r.take 3 ++ List.replicate (r.length - 3) 0) := by
  refine ⟨fun h => ?_, fun h => ?_, fun _ => rfl⟩
  · have h1 : r.length - (d0 - 3) = r.length - d0 + 3 := by omega
    have h2 : r.length - (r.length - d0 + 3) = d0 - 3 := by omega
    rw [skipRow, sliceStart, if_neg (by omega), h1, zeroFrom, h2]
  · subst h
    simp [skipRow, sliceStart, zeroFrom]

/-- **The default embedding makes skip layers undefined**: with `n_harmonic_functions_xyz = 0` and no features `d0 = 3`; all rows of a skip layer are zero, and weight normalisation divides by zero. -/
theorem init_skip_nan [DecidableEq K] (norm : List K → K) (hnorm : ∀ n, norm (List.replicate n 0) = 0) (r : List K) (hr : 3 ≤ r.length) (c : Idr) (h : c.harmonics = some 0) (hp : c.pooled = 0) (he : c.enc = 0) : weightNorm norm (skipRow c.d0 r) = none := by
  have hd : c.d0 = 3 := by simp only [Idr.d0, h, hp, he]
  rw [hd, (init_columns 3 r hr).2.1 rfl, weightNorm, if_pos (hnorm _)]

/-- Rows of positive norm are unchanged by weight normalisation at the start. -/
theorem weightNorm_id [DecidableEq K] (norm : List K → K) (row : List K) (h : norm row ≠ 0) : weightNorm norm row = some row := by
  rw [weightNorm, if_neg h, div_self h]
  simp

theorem dot_zeros (n : Nat) (x : List K) : dot (List.replicate n 0) x = 0 := by
  induction n generalizing x with
  | zero => simp [dot]
  | succ n ih =>
    cases x with
    | nil => simp [dot]
    | cons a x =>
      have := ih x
      simp only [dot] at this ⊢
      rw [List.replicate_succ, List.zipWith_cons_cons, List.sum_cons, this, zero_mul, add_zero]

theorem dot_cut (r : List K) (n : Nat) (x y : List K) (hx : x.take r.length = y.take r.length) (hl : x.length = y.length) : dot (r ++ List.replicate n 0) x = dot (r ++ List.replicate n 0) y := by
  induction r generalizing x y with
  | nil => rw [List.nil_append, dot_zeros, dot_zeros]
  | cons a r ih =>
    cases x with
    | nil =>
      cases y with
      | nil => rfl
      | cons b y => simp at hl
    | cons c x =>
      cases y with
      | nil => simp at hl
      | cons b y =>
        simp only [List.length_cons, List.take_succ_cons, List.cons.injEq] at hx
        have := ih x y hx.2 (by simpa using hl)
        simp only [dot] at this ⊢
        rw [List.cons_append, List.zipWith_cons_cons, List.zipWith_cons_cons, List.sum_cons, List.sum_cons, this, hx.1]

/-- The rest of the network, after the first layer, sees only three entries of the embedding. -/
theorem net_rest (d0 : Nat) (hd : 3 ≤ d0) (scale act : K → K) (e e' : List K) (he : e.length = d0) (he' : e'.length = d0) (h3 : e.take 3 = e'.take 3) (ls : List (Layer K)) (x : List K) (hf : Fits d0 false ls x.length) :
    netInit d0 scale act e false ls x = netInit d0 scale act e' false ls x := by
  induction ls generalizing x with
  | nil => rfl
  | cons l ls ih =>
    obtain ⟨h1, h2, hw, hrest⟩ := hf
    have hy : List.zipWith (fun r b => dot r (if l.skip then (x ++ e).map scale else x) + b) (initRows d0 false ls.isEmpty l) l.bias =
        List.zipWith (fun r b => dot r (if l.skip then (x ++ e').map scale else x) + b) (initRows d0 false ls.isEmpty l) l.bias := by
      by_cases hs : l.skip = true
      · have hne : ls.isEmpty = false := by
          have := (h1 hs).2
          cases ls with
          | nil => exact absurd rfl this
          | cons _ _ => rfl
        simp only [hs, if_true, initRows, hne, Bool.false_eq_true, if_false]
        rw [List.zipWith_map_left, List.zipWith_map_left]
        have hcong : ∀ (rows : List (List K)) (bias : List K), (∀ r ∈ rows, r.length = x.length + d0) →
            List.zipWith (fun r b => dot (skipRow d0 r) ((x ++ e).map scale) + b) rows bias = List.zipWith (fun r b => dot (skipRow d0 r) ((x ++ e').map scale) + b) rows bias := by
          intro rows
          induction rows with
          | nil => intro bias _; simp
          | cons r rows ihr =>
            intro bias hr
            cases bias with
            | nil => simp
            | cons b bias =>
              rw [List.zipWith_cons_cons, List.zipWith_cons_cons, ihr bias (fun r' h' => hr r' (by simp [h']))]
              have hrl := hr r (by simp)
              have hdot : dot (skipRow d0 r) ((x ++ e).map scale) = dot (skipRow d0 r) ((x ++ e').map scale) := by
                rcases Nat.eq_or_lt_of_le hd with h | h
                · rw [(init_columns d0 r (by omega)).2.1 h.symm, dot_zeros, dot_zeros]
                · rw [(init_columns d0 r (by omega)).1 h]
                  refine dot_cut _ _ _ _ ?_ (by simp [he, he'])
                  have hlen : (r.take (r.length - d0 + 3)).length = x.length + 3 := by
                    rw [List.length_take]; omega
                  rw [hlen, ← List.map_take, ← List.map_take, List.take_append, List.take_append]
                  have : x.length + 3 - x.length = 3 := by omega
                  rw [this, h3]
              rw [hdot]
        exact hcong l.rows l.bias (fun r hr => by simpa [hs] using hw r hr)
      · have hs : l.skip = false := by simpa using hs
        simp only [hs, Bool.false_eq_true, if_false]
    simp only [netInit]
    rw [hy]
    refine ih _ ?_
    have hlen : ∀ z : List K, (List.zipWith (fun r b => dot r z + b) (initRows d0 false ls.isEmpty l) l.bias).length = l.rows.length := by
      intro z
      have : (initRows d0 false ls.isEmpty l).length = l.rows.length := by
        unfold initRows
        split
        · rfl
        · split
          · simp
          · split <;> simp
      rw [List.length_zipWith, this, h2, Nat.min_self]
    split
    · rw [hlen]; exact hrest
    · rw [List.length_map, hlen]; exact hrest

/-- **A new field depends on three entries of the embedding only.** -/
theorem net_three (d0 : Nat) (hd : 3 ≤ d0) (scale act : K → K) (e e' : List K) (he : e.length = d0) (he' : e'.length = d0) (h3 : e.take 3 = e'.take 3) (l : Layer K) (ls : List (Layer K)) (hls : ls ≠ []) (hf : Fits d0 true (l :: ls) d0) :
    netInit d0 scale act e true (l :: ls) e = netInit d0 scale act e' true (l :: ls) e' := by
  obtain ⟨h1, h2, hw, hrest⟩ := hf
  have hs : l.skip = false := by
    by_contra hc
    exact absurd (h1 (by simpa using hc)).1 (by decide)
  have hem : ls.isEmpty = false := by
    cases ls with
    | nil => exact absurd rfl hls
    | cons _ _ => rfl
  have hy : List.zipWith (fun r b => dot r e + b) (l.rows.map firstRow) l.bias = List.zipWith (fun r b => dot r e' + b) (l.rows.map firstRow) l.bias := by
    rw [List.zipWith_map_left, List.zipWith_map_left]
    have hcong : ∀ (rows : List (List K)) (bias : List K), (∀ r ∈ rows, r.length = d0) → List.zipWith (fun r b => dot (firstRow r) e + b) rows bias = List.zipWith (fun r b => dot (firstRow r) e' + b) rows bias := by
      intro rows
      induction rows with
      | nil => intro bias _; simp
      | cons r rows ihr =>
        intro bias hr
        cases bias with
        | nil => simp
        | cons b bias =>
          have hrl := hr r (by simp)
          rw [List.zipWith_cons_cons, List.zipWith_cons_cons, ihr bias (fun r' h' => hr r' (by simp [h']))]
          have : dot (firstRow r) e = dot (firstRow r) e' := by
            rw [(init_columns 3 r (by omega)).2.2 (by omega)]
            refine dot_cut _ _ _ _ ?_ (by rw [he, he'])
            have hlen : (r.take 3).length = 3 := by rw [List.length_take]; omega
            rw [hlen, h3]
          rw [this]
    exact hcong l.rows l.bias (fun r hr => by simpa [hs] using hw r hr)
  simp only [netInit, hs, Bool.false_eq_true, if_false, hem, initRows, if_true]
  rw [hy]
  refine net_rest d0 hd scale act e e' he he' h3 ls _ ?_
  rw [List.length_map, List.length_zipWith, List.length_map, h2, Nat.min_self, ← h2]
  exact hrest

end InitThm

/-- **A new field with three or more harmonic functions depends on the first coordinate only**: the embedding begins with the sines of the first coordinate and ends with the point, while the initialisation expects the
point first; the value of a new field is the same for all points with the same first coordinate, so it is no sphere. -/
theorem init_blind (n : Nat) (hn : 3 ≤ n) (omega : ℝ) (x y : Fin 3 → ℝ) (hxy : x 0 = y 0) (scale act : ℝ → ℝ) (l : Layer ℝ) (ls : List (Layer ℝ)) (hls : ls ≠ []) (hf : Fits (3 * (2 * n + 1)) true (l :: ls) (3 * (2 * n + 1))) :
    netInit (3 * (2 * n + 1)) scale act (Harmonic.embed (Harmonic.freqs n omega true) true x none) true (l :: ls) (Harmonic.embed (Harmonic.freqs n omega true) true x none) =
    netInit (3 * (2 * n + 1)) scale act (Harmonic.embed (Harmonic.freqs n omega true) true y none) true (l :: ls) (Harmonic.embed (Harmonic.freqs n omega true) true y none) := by
  have hlen : ∀ z : Fin 3 → ℝ, (Harmonic.embed (Harmonic.freqs n omega true) true z none).length = 3 * (2 * n + 1) := by
    intro z
    rw [Harmonic.embed_length, Harmonic.freqs_length]
    rfl
  have hget : ∀ (z : Fin 3 → ℝ) k, k < 3 → (Harmonic.embed (Harmonic.freqs n omega true) true z none)[k]? = some (Real.sin (2 ^ k * omega * z 0) * 1) := by
    intro z k hk
    have := ((Harmonic.embed_get (Harmonic.freqs n omega true) true z none 0).1 k (2 ^ k * omega) (Harmonic.freqs_log n omega k (by omega))).1
    simpa [Harmonic.damp] using this
  refine net_three _ (by omega) scale act _ _ (hlen x) (hlen y) ?_ l ls hls hf
  refine List.ext_getElem? fun k => ?_
  rw [List.getElem?_take, List.getElem?_take]
  split
  · rename_i hk
    rw [hget x k hk, hget y k hk, hxy]
  · rfl

/-- For the case distinction of the initialisation the hypotheses are satisfiable. -/
example : Fits (K := ℚ) 21 true [⟨false, [List.replicate 21 1, List.replicate 21 2], [0, 0]⟩, ⟨true, [List.replicate 23 1], [0]⟩, ⟨false, [[1], [1]], [0, 0]⟩] 21 := by
  refine ⟨by simp, by simp, by simp, by simp, by simp, by simp, by simp, by simp, by simp, trivial⟩

example : skipRow 3 ([1, 2, 3, 4] : List ℚ) = [0, 0, 0, 0] ∧ skipRow 5 ([1, 2, 3, 4, 5, 6] : List ℚ) = [1, 2, 3, 4, 0, 0] := by decide +kernel

end P3D.SrnIdr
