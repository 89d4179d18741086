/-
Implicitron's decoding functions (`implicitron/models/implicit_function/decoding_functions.py`): `ElementwiseDecoder` and `MLPWithInputSkips`.

One feature vector at a time, real numbers.  `none` is the RuntimeError of a wrong size or the IndexError of a missing layer.  Not modelled: initialisation, training,
the transformer, broadcasting of a hidden size of one.
-/
import Mathlib.Analysis.SpecialFunctions.Log.Basic
import Mathlib.Analysis.SpecialFunctions.Exp
import Mathlib.Algebra.BigOperators.Group.List.Basic
import Mathlib.Tactic.Ring
import Mathlib.Tactic.Linarith
import Mathlib.Tactic.NormNum

set_option linter.unusedSectionVars false

namespace P3D.Decoders

/-! ### The code -/

/-- `DecoderActivation` (decoding_functions.py:34-38). -/
inductive Act
  | relu
  | softplus
  | sigmoid
  | identity
  deriving DecidableEq

/-- The functions (lines 99-105, 160-165). -/
noncomputable def Act.app : Act → ℝ → ℝ
  | .relu, x => max x 0
  | .softplus, x => Real.log (1 + Real.exp x)
  | .sigmoid, x => 1 / (1 + Real.exp (-x))
  | .identity, x => x

/-- `ElementwiseDecoder.forward` (lines 95-105). -/
noncomputable def elementwise (op : Act) (scale shift : ℝ) (x : List ℝ) : List ℝ := x.map fun v => op.app (v * scale + shift)

/-- A linear layer: its input size, rows of weights and biases. -/
structure Lin where
  inn : Nat
  w : List (List ℝ)
  b : List ℝ

noncomputable def dot (u v : List ℝ) : ℝ := (List.zipWith (· * ·) u v).sum

noncomputable def Lin.rows (l : Lin) (x : List ℝ) : List ℝ := List.zipWith (fun r b => dot r x + b) l.w l.b

noncomputable def Lin.app (l : Lin) (x : List ℝ) : Option (List ℝ) := if x.length = l.inn then some (l.rows x) else none

/-- Sizes as made by `torch.nn.Linear`. -/
structure Lin.Ok (l : Lin) (i o : Nat) : Prop where
  inn : l.inn = i
  out : l.w.length = o
  bias : l.b.length = o

/-- The settings (lines 148-157). -/
structure Cfg where
  layers : Nat
  inn : Nat
  out : Nat
  skip : Nat
  hidden : Nat
  skips : List Nat
  affine : Bool
  last : Act

/-- Sizes of layer `i` (lines 176-186). -/
def dims (c : Cfg) (i : Nat) : Nat × Nat :=
  (if 0 < i ∧ i ∈ c.skips ∧ c.affine = false then c.hidden + c.skip else if 0 < i then c.hidden else c.inn, if i + 1 < c.layers then c.hidden else c.out)

/-- The activation of layer `i` (lines 193-197): ReLU `if not layeri + 1 < n_layers`, otherwise the last activation. -/
def actOf (c : Cfg) (i : Nat) : Act := if ¬ i + 1 < c.layers then .relu else c.last

/-- The network: linear layers and the two layers of each affine skip (lines 171-201). -/
structure Net where
  lin : List Lin
  aff : List (Lin × Lin)

/-- Number of affine layers made (lines 180-184). -/
def nAff (c : Cfg) : Nat := if c.affine = true then ((List.range c.layers).filter fun i => 0 < i ∧ i ∈ c.skips).length else 0

structure Net.Ok (n : Net) (c : Cfg) : Prop where
  len : n.lin.length = c.layers
  lin : ∀ (i : Nat) (l : Lin), n.lin[i]? = some l → l.Ok (dims c i).1 (dims c i).2
  afflen : n.aff.length = nAff c
  aff : ∀ p ∈ n.aff, p.1.Ok c.skip (c.hidden * 2) ∧ p.2.Ok (c.hidden * 2) (c.hidden * 2)

/-- The affine layer on the skip tensor (lines 204-211). -/
noncomputable def affLayer (p : Lin × Lin) (z : List ℝ) : Option (List ℝ) := (p.1.app z).bind fun h => p.2.app (h.map Act.relu.app)

/-- `_apply_affine_layer` (lines 213-217). -/
noncomputable def applyAff (p : Lin × Lin) (x z : List ℝ) : Option (List ℝ) :=
  (affLayer p z).bind fun ms =>
    let mu := ms.take (ms.length / 2)
    let ls := ms.drop (ms.length / 2)
    if x.length = mu.length then some (List.zipWith (· * ·) (List.zipWith (· - ·) x mu) (ls.map Act.softplus.app)) else none

/-- The skip before layer `i`, with the number of skips so far (lines 237-244). -/
noncomputable def skipStep (c : Cfg) (n : Net) (i k : Nat) (y z : List ℝ) : Option (List ℝ × Nat) :=
  if i ∈ c.skips then
    if c.affine = true then (n.aff[k]?).bind fun p => (applyAff p y z).map fun y => (y, k + 1)
    else some (y ++ z, k + 1)
  else some (y, k)

/-- The loop (lines 234-246) from layer `i`. -/
noncomputable def loop (c : Cfg) (act : Nat → Act) (n : Net) (z : List ℝ) : List Lin → Nat → Nat → List ℝ → Option (List ℝ)
  | [], _, _, y => some y
  | l :: ls, i, k, y =>
    (skipStep c n i k y z).bind fun r => (l.app r.1).bind fun v => loop c act n z ls (i + 1) r.2 (v.map (act i).app)

/-- `forward` (lines 219-247). -/
noncomputable def forward (c : Cfg) (n : Net) (x : List ℝ) (z : Option (List ℝ)) : Option (List ℝ) := loop c (actOf c) n (z.getD x) n.lin 0 0 x

/-- As documented (lines 109-114, 143-144): ReLU in all layers but the last, which has the last activation. -/
def docAct (c : Cfg) (i : Nat) : Act := if i + 1 < c.layers then .relu else c.last

noncomputable def documented (c : Cfg) (n : Net) (x : List ℝ) (z : Option (List ℝ)) : Option (List ℝ) := loop c (docAct c) n (z.getD x) n.lin 0 0 x

/-! ### Elementwise -/

theorem relu_nonneg (x : ℝ) : 0 ≤ Act.relu.app x := le_max_right _ _

theorem softplus_pos (x : ℝ) : 0 < Act.softplus.app x ∧ x < Act.softplus.app x := by
  have hx := Real.exp_pos x
  refine ⟨Real.log_pos (by linarith), ?_⟩
  show x < Real.log (1 + Real.exp x)
  rw [Real.lt_log_iff_exp_lt (by linarith)]
  linarith

theorem sigmoid_unit (x : ℝ) : 0 < Act.sigmoid.app x ∧ Act.sigmoid.app x < 1 ∧ Act.sigmoid.app (-x) = 1 - Act.sigmoid.app x := by
  have hx := Real.exp_pos (-x)
  have hx' := Real.exp_pos x
  refine ⟨by show 0 < 1 / (1 + Real.exp (-x)); positivity, ?_, ?_⟩
  · show 1 / (1 + Real.exp (-x)) < 1
    rw [div_lt_one (by linarith)]
    linarith
  · show 1 / (1 + Real.exp (- -x)) = 1 - 1 / (1 + Real.exp (-x))
    rw [neg_neg, Real.exp_neg]
    field_simp
    ring

theorem app_mono (a : Act) : Monotone a.app := by
  intro x y h
  have hx := Real.exp_pos x
  have he := Real.exp_le_exp.mpr h
  cases a with
  | relu => exact max_le_max h le_rfl
  | softplus => exact Real.log_le_log (by linarith) (by linarith)
  | sigmoid =>
    have hy := Real.exp_pos (-y)
    have := Real.exp_le_exp.mpr (neg_le_neg h)
    exact one_div_le_one_div_of_le (by linarith) (by linarith)
  | identity => exact h

/-- The elementwise decoder keeps the number of features and, for a scale that is not negative, their order; without an operation it is undone by the inverse
scaling. -/
theorem elementwise_spec (op : Act) (scale shift : ℝ) (x : List ℝ) :
    (elementwise op scale shift x).length = x.length ∧
      (0 ≤ scale → ∀ (i j : Nat) (v w a b : ℝ), x[i]? = some v → x[j]? = some w → (elementwise op scale shift x)[i]? = some a → (elementwise op scale shift x)[j]? = some b →
        v ≤ w → a ≤ b) ∧
      (scale ≠ 0 → (elementwise .identity scale shift x).map (fun y => (y - shift) / scale) = x) := by
  refine ⟨List.length_map _, ?_, ?_⟩
  · intro hs i j v w a b hi hj ha hb h
    simp only [elementwise, List.getElem?_map, hi, hj, Option.map_some, Option.some.injEq] at ha hb
    subst ha; subst hb
    exact app_mono op (by nlinarith [mul_le_mul_of_nonneg_right h hs])
  · intro hs
    unfold elementwise
    rw [List.map_map]
    conv_rhs => rw [← List.map_id x]
    apply List.map_congr_left
    intro v _
    simp only [Function.comp_apply, Act.app, id]
    field_simp
    ring

/-! ### The network -/

theorem rows_length (l : Lin) (i o : Nat) (h : l.Ok i o) (x : List ℝ) : (l.rows x).length = o := by
  rw [Lin.rows, List.length_zipWith, h.out, h.bias, Nat.min_self]

theorem lin_app (l : Lin) (i o : Nat) (h : l.Ok i o) (x : List ℝ) (hx : x.length = i) : l.app x = some (l.rows x) := by
  rw [Lin.app, if_pos (by rw [h.inn, hx])]

theorem affLayer_ok (p : Lin × Lin) (c : Cfg) (h : p.1.Ok c.skip (c.hidden * 2) ∧ p.2.Ok (c.hidden * 2) (c.hidden * 2)) (z : List ℝ) (hz : z.length = c.skip) :
    ∃ v, affLayer p z = some v ∧ v.length = c.hidden * 2 := by
  unfold affLayer
  rw [lin_app _ _ _ h.1 z hz, Option.bind_some, lin_app _ _ _ h.2 _ (by rw [List.length_map, rows_length _ _ _ h.1])]
  exact ⟨_, rfl, rows_length _ _ _ h.2 _⟩

theorem applyAff_ok (p : Lin × Lin) (c : Cfg) (h : p.1.Ok c.skip (c.hidden * 2) ∧ p.2.Ok (c.hidden * 2) (c.hidden * 2)) (x z : List ℝ) (hz : z.length = c.skip)
    (hx : x.length = c.hidden) : ∃ v, applyAff p x z = some v ∧ v.length = c.hidden := by
  obtain ⟨v, h1, h2⟩ := affLayer_ok p c h z hz
  unfold applyAff
  rw [h1, Option.bind_some]
  dsimp only
  have hm : (v.take (v.length / 2)).length = c.hidden := by
    rw [List.length_take]
    omega
  rw [if_pos (by rw [hm, hx])]
  refine ⟨_, rfl, ?_⟩
  simp only [List.length_zipWith, List.length_map, List.length_drop, hm, hx]
  omega

/-- Number of skips before layer `i`. -/
def nBefore (c : Cfg) (i : Nat) : Nat := ((List.range i).filter fun j => 0 < j ∧ j ∈ c.skips).length

theorem nBefore_succ (c : Cfg) (i : Nat) : nBefore c (i + 1) = nBefore c i + if 0 < i ∧ i ∈ c.skips then 1 else 0 := by
  unfold nBefore
  rw [List.range_succ, List.filter_append, List.length_append]
  split_ifs with h
  · rw [List.filter_cons_of_pos (by simpa using h)]
    rfl
  · rw [List.filter_cons_of_neg (by simpa using h)]
    rfl

theorem nBefore_mono (c : Cfg) (i j : Nat) (h : i ≤ j) : nBefore c i ≤ nBefore c j := by
  induction h with
  | refl => exact le_rfl
  | step _ ih =>
    rw [Nat.succ_eq_add_one, nBefore_succ]
    omega

theorem skipStep_ok (c : Cfg) (n : Net) (hn : n.Ok c) (h0 : 0 ∉ c.skips) (i : Nat) (hi : i < c.layers) (y z : List ℝ) (hz : z.length = c.skip)
    (hy : y.length = if 0 < i then c.hidden else c.inn) : ∃ v, skipStep c n i (nBefore c i) y z = some (v, nBefore c (i + 1)) ∧ v.length = (dims c i).1 := by
  unfold skipStep dims
  rw [nBefore_succ]
  by_cases hs : i ∈ c.skips
  · have hpos : 0 < i := by
      rcases Nat.eq_zero_or_pos i with h | h
      · subst h
        exact absurd hs h0
      · exact h
    rw [if_pos hs]
    rw [if_pos hpos] at hy
    cases ha : c.affine with
    | true =>
      rw [if_pos rfl]
      have hk : nBefore c i < n.aff.length := by
        rw [hn.afflen, nAff, if_pos ha]
        have h1 := nBefore_mono c (i + 1) c.layers hi
        rw [nBefore_succ, if_pos ⟨hpos, hs⟩] at h1
        exact h1
      rw [List.getElem?_eq_getElem hk, Option.bind_some]
      obtain ⟨v, h1, h2⟩ := applyAff_ok _ c (hn.aff _ (List.getElem_mem hk)) y z hz hy
      rw [h1, if_pos ⟨hpos, hs⟩]
      refine ⟨v, rfl, ?_⟩
      simp [hpos, h2]
    | false =>
      rw [if_neg (by simp), if_pos ⟨hpos, hs⟩]
      refine ⟨_, rfl, ?_⟩
      rw [if_pos ⟨hpos, hs, rfl⟩, List.length_append, hy, hz]
  · rw [if_neg hs, if_neg fun h => hs h.2]
    refine ⟨y, rfl, ?_⟩
    rw [if_neg fun h => hs h.2.1, hy]

theorem loop_ok (c : Cfg) (act : Nat → Act) (n : Net) (hn : n.Ok c) (h0 : 0 ∉ c.skips) (z : List ℝ) (hz : z.length = c.skip) :
    ∀ (ls : List Lin) (i : Nat) (y : List ℝ), n.lin.drop i = ls → i + ls.length = c.layers → y.length = (if 0 < i then if i < c.layers then c.hidden else c.out else c.inn) →
      ∃ v, loop c act n z ls i (nBefore c i) y = some v ∧ (0 < c.layers → v.length = c.out ∧ (ls ≠ [] → ∃ u : List ℝ, v = u.map (act (c.layers - 1)).app)) := by
  intro ls
  induction ls with
  | nil =>
    intro i y _ hi hy
    refine ⟨y, rfl, fun hl => ⟨?_, fun h => absurd rfl h⟩⟩
    have : i = c.layers := by simpa using hi
    rw [hy, this, if_pos hl, if_neg (lt_irrefl _)]
  | cons l ls ih =>
    intro i y hd hi hy
    have hlt : i < c.layers := by
      rw [List.length_cons] at hi
      omega
    rw [if_pos hlt] at hy
    obtain ⟨v, h1, h2⟩ := skipStep_ok c n hn h0 i hlt y z hz hy
    have hl : n.lin[i]? = some l := by
      have := congrArg List.head? hd
      rw [List.head?_drop] at this
      exact this
    have hok := hn.lin i l hl
    rw [loop, h1, Option.bind_some, lin_app _ _ _ hok _ h2, Option.bind_some]
    have hd' : n.lin.drop (i + 1) = ls := by
      rw [← List.drop_drop, hd]
      rfl
    obtain ⟨w, g1, g2⟩ := ih (i + 1) ((l.rows v).map (act i).app) hd' (by rw [List.length_cons] at hi; omega) (by
      rw [List.length_map, rows_length _ _ _ hok, if_pos (Nat.succ_pos i)]
      rfl)
    refine ⟨w, g1, fun hp => ⟨(g2 hp).1, fun _ => ?_⟩⟩
    by_cases hls : ls = []
    · subst hls
      rw [loop] at g1
      refine ⟨l.rows v, ?_⟩
      rw [← Option.some.inj g1]
      have : c.layers - 1 = i := by
        simp only [List.length_cons, List.length_nil] at hi
        omega
      rw [this]
    · exact (g2 hp).2 hls

/-- With sizes as made and no skip at layer 0 the network gives a vector of the output size. -/
theorem forward_size (c : Cfg) (n : Net) (hn : n.Ok c) (hl : 0 < c.layers) (h0 : 0 ∉ c.skips) (x : List ℝ) (z : Option (List ℝ)) (hx : x.length = c.inn)
    (hz : (z.getD x).length = c.skip) : ∃ v, forward c n x z = some v ∧ v.length = c.out := by
  obtain ⟨v, h1, h2⟩ := loop_ok c (actOf c) n hn h0 (z.getD x) hz n.lin 0 x rfl (by rw [hn.len, Nat.zero_add]) (by rw [if_neg (lt_irrefl 0), hx])
  exact ⟨v, h1, (h2 hl).1⟩

/-- Without skip tensor the input takes its place, so it must have its size. -/
theorem forward_none (c : Cfg) (n : Net) (x : List ℝ) : forward c n x none = forward c n x (some x) := rfl

/-- The last layer is always a ReLU: no output is negative, whatever the last activation. -/
theorem forward_nonneg (c : Cfg) (n : Net) (hn : n.Ok c) (hl : 0 < c.layers) (h0 : 0 ∉ c.skips) (x : List ℝ) (z : Option (List ℝ)) (hx : x.length = c.inn)
    (hz : (z.getD x).length = c.skip) (v : List ℝ) (hv : forward c n x z = some v) : ∀ t ∈ v, 0 ≤ t := by
  obtain ⟨w, h1, h2⟩ := loop_ok c (actOf c) n hn h0 (z.getD x) hz n.lin 0 x rfl (by rw [hn.len, Nat.zero_add]) (by rw [if_neg (lt_irrefl 0), hx])
  obtain ⟨u, hu⟩ := (h2 hl).2 (by
    intro h
    rw [← hn.len, h] at hl
    exact lt_irrefl 0 hl)
  have : v = w := Option.some.inj (hv.symm.trans h1)
  subst this
  have ha : actOf c (c.layers - 1) = .relu := by
    unfold actOf
    rw [if_pos (by omega)]
  rw [ha] at hu
  intro t ht
  rw [hu] at ht
  obtain ⟨s, -, rfl⟩ := List.mem_map.mp ht
  exact relu_nonneg s

/-- With the documented activations the last layer has the last activation. -/
theorem documented_last (c : Cfg) (n : Net) (hn : n.Ok c) (hl : 0 < c.layers) (h0 : 0 ∉ c.skips) (x : List ℝ) (z : Option (List ℝ)) (hx : x.length = c.inn)
    (hz : (z.getD x).length = c.skip) : ∃ u : List ℝ, documented c n x z = some (u.map c.last.app) ∧ u.length = c.out := by
  obtain ⟨w, h1, h2⟩ := loop_ok c (docAct c) n hn h0 (z.getD x) hz n.lin 0 x rfl (by rw [hn.len, Nat.zero_add]) (by rw [if_neg (lt_irrefl 0), hx])
  obtain ⟨u, hu⟩ := (h2 hl).2 (by
    intro h
    rw [← hn.len, h] at hl
    exact lt_irrefl 0 hl)
  have ha : docAct c (c.layers - 1) = c.last := by
    unfold docAct
    rw [if_neg (by omega)]
  rw [ha] at hu
  refine ⟨u, h1.trans (by rw [hu]), ?_⟩
  have := (h2 hl).1
  rw [hu, List.length_map] at this
  exact this

/-- For the default, ReLU, the network is the documented one. -/
theorem relu_documented (c : Cfg) (n : Net) (h : c.last = .relu) (x : List ℝ) (z : Option (List ℝ)) : forward c n x z = documented c n x z := by
  unfold forward documented
  congr 1
  funext i
  unfold actOf docAct
  rw [h]
  split_ifs <;> rfl

/-- For any other last activation it is not: with one layer without weights and bias 2 or -2 ReLU and the documented activation differ. -/
theorem swapped (a : Act) (ha : a ≠ .relu) : ∃ (c : Cfg) (n : Net) (x : List ℝ), c.last = a ∧ n.Ok c ∧ 0 ∉ c.skips ∧ c.layers = 1 ∧ forward c n x none ≠ documented c n x none := by
  have hok : ∀ b : ℝ, Net.Ok ⟨[⟨0, [[]], [b]⟩], []⟩ ⟨1, 0, 1, 0, 0, [], false, a⟩ := by
    intro b
    refine ⟨rfl, ?_, rfl, fun p hp => (by cases hp)⟩
    intro i l hl
    cases i with
    | zero =>
      have := Option.some.inj hl
      subst this
      exact ⟨rfl, rfl, rfl⟩
    | succ i => simp at hl
  refine ⟨⟨1, 0, 1, 0, 0, [], false, a⟩, ⟨[⟨0, [[]], [-2]⟩], []⟩, [], rfl, hok (-2), by simp, rfl, ?_⟩
  have hf : forward ⟨1, 0, 1, 0, 0, [], false, a⟩ ⟨[⟨0, [[]], [-2]⟩], []⟩ [] none = some [0] := by
    simp [forward, loop, skipStep, Lin.app, Lin.rows, dot, actOf, Act.app]
  have hd : documented ⟨1, 0, 1, 0, 0, [], false, a⟩ ⟨[⟨0, [[]], [-2]⟩], []⟩ [] none = some [a.app (-2)] := by
    simp [documented, loop, skipStep, Lin.app, Lin.rows, dot, docAct]
  rw [hf, hd]
  intro h
  have h := (List.cons.inj (Option.some.inj h)).1
  cases a with
  | relu => exact ha rfl
  | softplus => exact absurd h (softplus_pos (-2)).1.ne
  | sigmoid => exact absurd h (sigmoid_unit (-2)).1.ne
  | identity => norm_num [Act.app] at h

/-! ### The identity as last activation makes the network linear -/

noncomputable def mix (t : ℝ) (u v : List ℝ) : List ℝ := List.zipWith (fun a b => (1 - t) * a + t * b) u v

theorem mix_append (t : ℝ) (u v u' v' : List ℝ) (h : u.length = v.length) : mix t (u ++ u') (v ++ v') = mix t u v ++ mix t u' v' := by
  unfold mix
  rw [List.zipWith_append h]

theorem dot_mix (t : ℝ) (r u v : List ℝ) (h : u.length = v.length) : dot r (mix t u v) = (1 - t) * dot r u + t * dot r v := by
  induction r generalizing u v with
  | nil => simp [dot]
  | cons a r ih =>
    cases u with
    | nil =>
      cases v with
      | nil => simp [dot, mix]
      | cons b v => cases h
    | cons b u =>
      cases v with
      | nil => cases h
      | cons d v =>
        have := ih u v (by simpa using h)
        simp only [dot, mix, List.zipWith_cons_cons, List.sum_cons] at this ⊢
        rw [this]
        ring

theorem rows_mix (l : Lin) (t : ℝ) (u v : List ℝ) (h : u.length = v.length) : l.rows (mix t u v) = mix t (l.rows u) (l.rows v) := by
  unfold Lin.rows
  generalize l.w = w
  generalize l.b = b
  induction w generalizing b with
  | nil => simp [mix]
  | cons r w ih =>
    cases b with
    | nil => simp [mix]
    | cons a b =>
      rw [List.zipWith_cons_cons, List.zipWith_cons_cons, List.zipWith_cons_cons, ih b, dot_mix t r u v h]
      simp only [mix, List.zipWith_cons_cons]
      congr 1
      ring

/-- The values before the last activation, with the identity in the hidden layers. -/
noncomputable def pre (c : Cfg) (z : List ℝ) : List Lin → Nat → List ℝ → List ℝ
  | [], _, y => y
  | l :: ls, i, y => pre c z ls (i + 1) (l.rows (if i ∈ c.skips then y ++ z else y))

theorem pre_mix (c : Cfg) (t : ℝ) (z z' : List ℝ) (hz : z.length = z'.length) (ls : List Lin) (i : Nat) (y y' : List ℝ) (hy : y.length = y'.length) :
    pre c (mix t z z') ls i (mix t y y') = mix t (pre c z ls i y) (pre c z' ls i y') := by
  induction ls generalizing i y y' with
  | nil => rfl
  | cons l ls ih =>
    rw [pre, pre, pre]
    have hl : ∀ u v : List ℝ, (l.rows u).length = (l.rows v).length := fun u v => by simp [Lin.rows]
    by_cases h : i ∈ c.skips
    · simp only [if_pos h]
      rw [← mix_append t y y' z z' hy, rows_mix l t _ _ (by rw [List.length_append, List.length_append, hy, hz]), ih _ _ _ (hl _ _)]
    · simp only [if_neg h]
      rw [rows_mix l t _ _ hy, ih _ _ _ (hl _ _)]

theorem loop_identity (c : Cfg) (hc : c.last = .identity) (ha : c.affine = false) (n : Net) (z : List ℝ) (ls : List Lin) (i k : Nat) (hi : i + ls.length = c.layers) (hls : ls ≠ [])
    (y v : List ℝ) (h : loop c (actOf c) n z ls i k y = some v) : v = (pre c z ls i y).map Act.relu.app := by
  induction ls generalizing i k y with
  | nil => exact absurd rfl hls
  | cons l ls ih =>
    rw [loop] at h
    have hs : ∃ k', skipStep c n i k y z = some (if i ∈ c.skips then y ++ z else y, k') := by
      unfold skipStep
      by_cases hm : i ∈ c.skips
      · rw [if_pos hm, if_neg (by simp [ha]), if_pos hm]
        exact ⟨_, rfl⟩
      · rw [if_neg hm, if_neg hm]
        exact ⟨_, rfl⟩
    obtain ⟨k', hs⟩ := hs
    rw [hs, Option.bind_some] at h
    dsimp only at h
    unfold Lin.app at h
    by_cases hl : (if i ∈ c.skips then y ++ z else y).length = l.inn
    · rw [if_pos hl, Option.bind_some] at h
      rw [pre]
      by_cases hn : ls = []
      · subst hn
        rw [loop] at h
        rw [← Option.some.inj h]
        have : actOf c i = .relu := by
          unfold actOf
          simp only [List.length_cons, List.length_nil] at hi
          rw [if_pos (by omega)]
        rw [this]
        rfl
      · have : actOf c i = .identity := by
          unfold actOf
          have : 0 < ls.length := List.length_pos_iff.mpr hn
          rw [List.length_cons] at hi
          rw [if_neg (by omega), hc]
        rw [this] at h
        have hid : ∀ u : List ℝ, u.map Act.identity.app = u := by
          intro u
          show u.map (fun x => x) = u
          exact List.map_id' u
        rw [hid] at h
        exact ih (i + 1) k' (by rw [List.length_cons] at hi; omega) hn _ h
    · rw [if_neg hl] at h
      cases h

/-- With the identity as last activation (and concatenated skips) the output is the positive part of an affine function of the input and the skip tensor: the depth of the network has no effect. -/
theorem identity_affine (c : Cfg) (hc : c.last = .identity) (ha : c.affine = false) (hl : 0 < c.layers) (n : Net) (hn : n.lin.length = c.layers) :
    ∃ f : List ℝ → List ℝ → List ℝ, (∀ x z v, forward c n x (some z) = some v → v = (f x z).map Act.relu.app) ∧
      ∀ t x x' z z', x.length = x'.length → z.length = z'.length → f (mix t x x') (mix t z z') = mix t (f x z) (f x' z') := by
  refine ⟨fun x z => pre c z n.lin 0 x, ?_, ?_⟩
  · intro x z v h
    exact loop_identity c hc ha n z n.lin 0 0 (by omega) (by
      intro h
      rw [← hn, h] at hl
      exact lt_irrefl 0 hl) x v h
  · intro t x x' z z' hx hz
    exact pre_mix c t z z' hz n.lin 0 x x' hx

/-! ### A skip at the first layer -/

/-- A skip at layer 0 makes every call fail: the layer is made without room for the skip tensor, and there are too few affine layers. -/
theorem skip_zero (c : Cfg) (n : Net) (hn : n.Ok c) (hl : 0 < c.layers) (h0 : 0 ∈ c.skips) (ha : c.affine = false) (x : List ℝ) (z : Option (List ℝ)) (hx : x.length = c.inn)
    (hz : (z.getD x).length = c.skip) (hs : 0 < c.skip) : forward c n x z = none := by
  unfold forward
  cases hlin : n.lin with
  | nil =>
    rw [← hn.len, hlin] at hl
    exact absurd hl (lt_irrefl 0)
  | cons l ls =>
    have hok := hn.lin 0 l (by rw [hlin]; rfl)
    rw [loop]
    unfold skipStep
    rw [if_pos h0, if_neg (by simp [ha]), Option.bind_some]
    dsimp only
    unfold Lin.app
    rw [if_neg, Option.bind_none]
    rw [hok.inn, List.length_append, hx, hz]
    simp only [dims, lt_irrefl, false_and, if_false]
    omega

theorem skip_zero_affine (c : Cfg) (n : Net) (hn : n.Ok c) (hl : 0 < c.layers) (h0 : 0 ∈ c.skips) (ha : c.affine = true) (x : List ℝ) (z : Option (List ℝ))
    (hx : x.length = c.inn) (hne : c.inn ≠ c.hidden) (hz : (z.getD x).length = c.skip) : forward c n x z = none := by
  unfold forward
  cases hlin : n.lin with
  | nil =>
    rw [← hn.len, hlin] at hl
    exact absurd hl (lt_irrefl 0)
  | cons l ls =>
    rw [loop]
    unfold skipStep
    rw [if_pos h0, if_pos ha]
    cases hp : n.aff[0]? with
    | none => rfl
    | some p =>
      rw [Option.bind_some]
      obtain ⟨v, h1, h2⟩ := affLayer_ok p c (hn.aff p (List.mem_of_getElem? hp)) _ hz
      have : applyAff p x (z.getD x) = none := by
        unfold applyAff
        rw [h1, Option.bind_some]
        dsimp only
        rw [if_neg]
        rw [List.length_take, hx]
        omega
      rw [this]
      rfl

/-! ### Examples -/

/-- A network with two layers, x ↦ -x ↦ -3 (-x): documented 3 relu(-x) negated is never positive, the code gives 3x. -/
example : forward ⟨2, 1, 1, 1, 1, [], false, .identity⟩ ⟨[⟨1, [[-1]], [0]⟩, ⟨1, [[-3]], [0]⟩], []⟩ [2] none = some [6] ∧
    documented ⟨2, 1, 1, 1, 1, [], false, .identity⟩ ⟨[⟨1, [[-1]], [0]⟩, ⟨1, [[-3]], [0]⟩], []⟩ [2] none = some [0] := by
  constructor
  · simp [forward, loop, skipStep, Lin.app, Lin.rows, dot, actOf, Act.app]
    norm_num
  · simp [documented, loop, skipStep, Lin.app, Lin.rows, dot, docAct, Act.app]

end P3D.Decoders
