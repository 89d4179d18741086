/-
Lighting and shading: `diffuse`, `specular`, the lights (`renderer/lighting.py`), `_apply_lighting`, `phong_shading`, `flat_shading` and
`gouraud_shading` (`renderer/mesh/shading.py`).

Numbers are real numbers.  Shapes and broadcasting are those of `Verif.Tens`.  The properties of lights, materials and the camera centres
are tensors with a batch dimension as the constructors leave them (`Verif.TensorProps`).  `torch.pow` is the real power; shininess is not
negative (`0 ** s` is infinite for `s < 0` in PyTorch, which is not modelled).
-/
import Verif.Tens
import Verif.Vec3
import Verif.FaceAttrs
import Mathlib.Analysis.SpecialFunctions.Pow.Real
import Mathlib.Analysis.SpecialFunctions.Sqrt
import Mathlib.Algebra.BigOperators.Group.List.Basic
import Mathlib.Tactic.Ring
import Mathlib.Tactic.Linarith

set_option linter.unusedSectionVars false

namespace P3D.Light

open P3D.Tens

noncomputable section

/-! ### Model: `renderer/lighting.py` -/

/-- A row divided by its length, as `F.normalize(v, p=2, dim=-1, eps=1e-6)` does. -/
def nrm (d : Nat) (r : Nat → ℝ) (i : Nat) : ℝ := r i / max (Real.sqrt ((List.range d).map fun c => r c * r c).sum) (1 / 10 ^ 6)

def normalize (t : Ten ℝ) : Ten ℝ := mapRow nrm t

/-- The batch size of an argument after `format_tensor` (utils.py:303-304: a scalar gets one). -/
def size0 (t : Ten ℝ) : Nat := t.shape.headD 1

/-- One argument of `convert_to_tensors_and_broadcast` (utils.py:343-350). -/
def toBatch (N : Nat) (t : Ten ℝ) : Except Err (Ten ℝ) :=
  if size0 t ≠ 1 ∧ size0 t ≠ N then .error .value else .ok (expand0 N t)

/-- `1` for every dimension between the first and the last. -/
def ones (t : Ten ℝ) : List Nat := List.replicate (t.shape.length - 2) 1

/-- The reshaping of a property, lighting.py:61-66, 131-141. -/
def reshape (target : List Nat) (rest : List Nat) (t : Ten ℝ) : Except Err (Ten ℝ) :=
  if t.shape ≠ target then viewB rest t else .ok t

/-- lighting.py:17-73 `diffuse`. -/
def diffuse (normals color direction : Ten ℝ) : Except Err (Ten ℝ) := do
  let N := max (size0 normals) (max (size0 color) (size0 direction))
  let normals ← toBatch N normals
  let color ← toBatch N color
  let direction ← toBatch N direction
  let direction ← reshape normals.shape (ones normals ++ [3]) direction
  let color ← reshape normals.shape (ones normals ++ [3]) color
  let prod ← map2 (· * ·) (normalize normals) (normalize direction)
  let angle := map1 (max 0) (sumLast prod)
  map2 (· * ·) color (unsq angle)

/-- lighting.py:76-160 `specular`. -/
def specular (points normals direction color camera shininess : Ten ℝ) : Except Err (Ten ℝ) := do
  if points.shape ≠ normals.shape then .error .value
  let N := max (size0 points) (max (size0 color) (max (size0 direction) (max (size0 camera) (size0 shininess))))
  let _ ← toBatch N points
  let color ← toBatch N color
  let direction ← toBatch N direction
  let camera ← toBatch N camera
  let shininess ← toBatch N shininess
  let direction ← reshape normals.shape (ones points ++ [3]) direction
  let color ← reshape normals.shape (ones points ++ [3]) color
  let camera ← reshape normals.shape (ones points ++ [3]) camera
  let shininess ← reshape normals.shape (ones points) shininess
  let normals := normalize normals
  let direction := normalize direction
  let prod ← map2 (· * ·) normals direction
  let cos := sumLast prod
  let mask := map1 (fun x : ℝ => if 0 < x then (1 : ℝ) else 0) cos
  let view ← map2 (· - ·) camera points
  let view := normalize view
  let cn ← map2 (· * ·) (unsq cos) normals
  let refl ← map2 (· + ·) (map1 (fun x => -x) direction) (map1 (2 * ·) cn)
  let vr ← map2 (· * ·) view refl
  let alpha ← map2 (· * ·) (map1 (max 0) (sumLast vr)) mask
  let pw ← map2 (fun a s : ℝ => a ^ s) alpha shininess
  map2 (· * ·) color (unsq pw)

/-- The lights of lighting.py:163-341. -/
inductive Lights
  | directional (ambient diffuse specular direction : Ten ℝ)
  | point (ambient diffuse specular location : Ten ℝ)
  | ambient (ambient : Ten ℝ)

def Lights.amb : Lights → Ten ℝ
  | .directional a _ _ _ => a
  | .point a _ _ _ => a
  | .ambient a => a

/-- lighting.py:260-271 `reshape_location`. -/
def reshapeLocation (loc points : Ten ℝ) : Ten ℝ := if loc.shape.length = points.shape.length then loc else mid 3 loc

/-- lighting.py:335-340 `_zeros_channels`. -/
def zeros (amb points : Ten ℝ) : Ten ℝ := ⟨points.shape.dropLast ++ [amb.shape.getLastD 0], fun _ => 0⟩

/-- lighting.py:205-213, 273-276, 329-330. -/
def Lights.diffuse (l : Lights) (normals points : Ten ℝ) : Except Err (Ten ℝ) :=
  match l with
  | .directional _ d _ dir => Light.diffuse normals d dir
  | .point _ d _ loc => do
    let dir ← map2 (· - ·) (reshapeLocation loc points) points
    Light.diffuse normals d dir
  | .ambient a => .ok (zeros a points)

/-- lighting.py:215-223, 278-288, 332-333. -/
def Lights.specular (l : Lights) (normals points camera shininess : Ten ℝ) : Except Err (Ten ℝ) :=
  match l with
  | .directional _ _ s dir => Light.specular points normals dir s camera shininess
  | .point _ _ s loc => do
    let dir ← map2 (· - ·) (reshapeLocation loc points) points
    Light.specular points normals dir s camera shininess
  | .ambient a => .ok (zeros a points)

/-- materials.py:17-69. -/
structure Materials where
  ambient : Ten ℝ
  diffuse : Ten ℝ
  specular : Ten ℝ
  shininess : Ten ℝ

/-- shading.py:18-56 `_apply_lighting`; `camera` is `cameras.get_camera_center()`. -/
def applyLighting (points normals : Ten ℝ) (l : Lights) (camera : Ten ℝ) (m : Materials) : Except Err (Ten ℝ × Ten ℝ × Ten ℝ) := do
  let ld ← l.diffuse normals points
  let ls ← l.specular normals points camera m.shininess
  let a ← map2 (· * ·) m.ambient l.amb
  let d ← map2 (· * ·) m.diffuse ld
  let s ← map2 (· * ·) m.specular ls
  if normals.shape.length = 2 ∧ points.shape.length = 2 then .ok (squeeze a, squeeze d, squeeze s)
  else if a.shape.length ≠ d.shape.length then .ok (mid 3 a, d, s)
  else .ok (a, d, s)

/-- shading.py:86-93: the colours of the fragments from their positions, normals and texels. -/
def shade (points normals : Ten ℝ) (l : Lights) (camera : Ten ℝ) (m : Materials) (texels : Ten ℝ) : Except Err (Ten ℝ) := do
  let r ← applyLighting points normals l camera m
  let x ← map2 (· + ·) r.1 r.2.1
  let y ← map2 (· * ·) x texels
  map2 (· + ·) y r.2.2

/-! ### Specification: one point -/

def norm (v : V3 ℝ) : ℝ := Real.sqrt (V3.normSq v)

/-- The direction of a vector. -/
def unit (v : V3 ℝ) : V3 ℝ := (max (norm v) (1 / 10 ^ 6))⁻¹ • v

/-- Lambert's law: the cosine of the angle between normal and light, nothing from behind. -/
def lambert (n l : V3 ℝ) : ℝ := max 0 (V3.dot (unit n) (unit l))

/-- The direction in which light from direction `l` is reflected at a mirror with normal `n`. -/
def mirror (n l : V3 ℝ) : V3 ℝ := (2 * V3.dot (unit n) (unit l)) • unit n - unit l

/-- The cosine between the reflected light and the viewer, nothing if the light comes from behind. -/
def gloss (p n l cam : V3 ℝ) : ℝ := if 0 < V3.dot (unit n) (unit l) then max 0 (V3.dot (unit (cam - p)) (mirror n l)) else 0

/-- Component of a vector. -/
def comp (v : V3 ℝ) (c : Nat) : ℝ := if c = 0 then v.x else if c = 1 then v.y else v.z

/-- The index used in a dimension of size `L`. -/
def pick (L b : Nat) : Nat := if L = 1 then 0 else b

/-- The vector at an index of all dimensions but the last. -/
def vec (f : List Nat → ℝ) (ix : List Nat) : V3 ℝ := ⟨f (ix ++ [0]), f (ix ++ [1]), f (ix ++ [2])⟩

/-! ### Entries -/

theorem nrm_congr (r r' : Nat → ℝ) (h : ∀ c < 3, r c = r' c) : ∀ i < 3, nrm 3 r i = nrm 3 r' i := by
  intro i hi
  unfold nrm
  rw [h i hi]
  have : (List.range 3).map (fun c => r c * r c) = (List.range 3).map (fun c => r' c * r' c) := by
    refine List.map_congr_left fun c hc => ?_
    rw [h c (List.mem_range.mp hc)]
  rw [this]

theorem nrm_unit (f : List Nat → ℝ) (ix : List Nat) {c : Nat} (hc : c < 3) :
    nrm 3 (fun c => f (ix ++ [c])) c = comp (unit (vec f ix)) c := by
  have hs : ((List.range 3).map fun c => f (ix ++ [c]) * f (ix ++ [c])).sum = V3.normSq (vec f ix) := by
    simp [List.range_succ, V3.normSq, V3.dot, vec]; ring
  unfold nrm
  rw [hs]
  simp only [unit, norm, comp]
  have : c = 0 ∨ c = 1 ∨ c = 2 := by omega
  rcases this with rfl | rfl | rfl <;> simp [vec, div_eq_inv_mul]

theorem normalize_reads {t : Ten ℝ} {a s : List Nat} (ht : t.shape = a ++ [3]) {f : List Nat → ℝ} (h : Reads t (s ++ [3]) f) :
    Reads (normalize t) (s ++ [3]) (fun ix => comp (unit (vec f ix.dropLast)) (ix.getLastD 0)) := by
  refine reads_congr (mapRow_reads ht h nrm (fun r r' e => nrm_congr r r' e)) fun ix hix => ?_
  obtain ⟨jx, c, rfl, _, hc⟩ := inR_snoc hix
  simp only [List.dropLast_concat, List.getLastD_concat]
  exact nrm_unit f jx hc

theorem sum3 (g : Nat → ℝ) : ((List.range 3).map g).sum = g 0 + g 1 + g 2 := by
  simp [List.range_succ]; ring

theorem comp_sum (v w : V3 ℝ) : ((List.range 3).map fun c => comp v c * comp w c).sum = V3.dot v w := by
  rw [sum3]; simp [comp, V3.dot]

theorem vec_comp (v : List Nat → V3 ℝ) (ix : List Nat) : vec (fun jx => comp (v jx.dropLast) (jx.getLastD 0)) ix = v ix := by
  simp only [vec, List.dropLast_concat, List.getLastD_concat]
  simp [comp]

/-- Reading of a vector tensor, by vectors. -/
def ReadsV (t : Ten ℝ) (s : List Nat) (v : List Nat → V3 ℝ) : Prop :=
  (∃ a, t.shape = a ++ [3]) ∧ Reads t (s ++ [3]) fun ix => comp (v ix.dropLast) (ix.getLastD 0)

theorem readsV_of {t : Ten ℝ} {a s : List Nat} (ht : t.shape = a ++ [3]) {f : List Nat → ℝ} (h : Reads t (s ++ [3]) f) :
    ReadsV t s (vec f) := by
  refine ⟨⟨a, ht⟩, reads_congr h fun ix hix => ?_⟩
  obtain ⟨jx, c, rfl, _, hc⟩ := inR_snoc hix
  simp only [List.dropLast_concat, List.getLastD_concat]
  have : c = 0 ∨ c = 1 ∨ c = 2 := by omega
  rcases this with rfl | rfl | rfl <;> simp [vec, comp]

theorem ReadsV.congr {t : Ten ℝ} {s : List Nat} {v w : List Nat → V3 ℝ} (h : ReadsV t s v) (e : ∀ ix, InR s ix → v ix = w ix) : ReadsV t s w := by
  refine ⟨h.1, reads_congr h.2 fun ix hix => ?_⟩
  obtain ⟨jx, c, rfl, hj, hc⟩ := inR_snoc hix
  simp only [List.dropLast_concat, e jx hj]

theorem ReadsV.normalize {t : Ten ℝ} {s : List Nat} {v : List Nat → V3 ℝ} (h : ReadsV t s v) :
    ReadsV (Light.normalize t) s (fun ix => unit (v ix)) := by
  obtain ⟨⟨a, ha⟩, hr⟩ := h
  refine ⟨⟨a, ha⟩, reads_congr (normalize_reads ha hr) fun ix hix => ?_⟩
  rw [vec_comp]

/-- The shape of the result of an operation on vector tensors. -/
theorem shape_snoc {a s : List Nat} {d e : Nat} (h : Fit a (s ++ [d])) (h2 : ∃ b, a = b ++ [e]) : e = 1 ∨ e = d := by
  obtain ⟨b, rfl⟩ := h2
  exact (fit_snoc h).2

theorem bshape_snoc {a b r : List Nat} (h : bshape (a ++ [3]) (b ++ [3]) = some r) : ∃ c, r = c ++ [3] := by
  simp only [bshape, List.reverse_append, List.reverse_singleton, List.singleton_append, brev, bdim_self] at h
  cases hb : brev a.reverse b.reverse with
  | none => rw [hb] at h; cases h
  | some x => rw [hb] at h; simp at h; exact ⟨x.reverse, h.symm⟩

theorem bshape_snoc1 {a b r : List Nat} (h : bshape (a ++ [3]) (b ++ [1]) = some r) : ∃ c, r = c ++ [3] := by
  simp only [bshape, List.reverse_append, List.reverse_singleton, List.singleton_append, brev, bdim_one] at h
  cases hb : brev a.reverse b.reverse with
  | none => rw [hb] at h; cases h
  | some x => rw [hb] at h; simp at h; exact ⟨x.reverse, h.symm⟩

theorem bshape_1snoc {a b r : List Nat} (h : bshape (a ++ [1]) (b ++ [3]) = some r) : ∃ c, r = c ++ [3] := by
  simp only [bshape, List.reverse_append, List.reverse_singleton, List.singleton_append, brev, one_bdim] at h
  cases hb : brev a.reverse b.reverse with
  | none => rw [hb] at h; cases h
  | some x => rw [hb] at h; simp at h; exact ⟨x.reverse, h.symm⟩

theorem map2_shape {op : ℝ → ℝ → ℝ} {a b r : Ten ℝ} (h : map2 op a b = .ok r) : bshape a.shape b.shape = some r.shape := by
  unfold map2 at h
  split at h
  · rename_i s hs; cases h; exact hs
  · cases h

/-- Operations on vector tensors, component by component. -/
theorem ReadsV.map2 {t u : Ten ℝ} {s : List Nat} {v w : List Nat → V3 ℝ} (h : ReadsV t s v) (h' : ReadsV u s w) (op : ℝ → ℝ → ℝ) :
    ∃ r, Tens.map2 op t u = .ok r ∧
      ReadsV r s (fun ix => ⟨op (v ix).x (w ix).x, op (v ix).y (w ix).y, op (v ix).z (w ix).z⟩) ∧
      (t.shape = s ++ [3] ∨ u.shape = s ++ [3] → r.shape = s ++ [3]) := by
  obtain ⟨⟨a, ha⟩, hr⟩ := h
  obtain ⟨⟨b, hb⟩, hr'⟩ := h'
  obtain ⟨r, e, hrr, hs⟩ := map2_reads hr hr' op
  refine ⟨r, e, ⟨?_, reads_congr hrr fun ix hix => ?_⟩, hs⟩
  · have := map2_shape e
    rw [ha, hb] at this
    exact bshape_snoc this
  · simp only [comp]; split_ifs <;> rfl

theorem ReadsV.map1 {t : Ten ℝ} {s : List Nat} {v : List Nat → V3 ℝ} (h : ReadsV t s v) (op : ℝ → ℝ) :
    ReadsV (Tens.map1 op t) s (fun ix => ⟨op (v ix).x, op (v ix).y, op (v ix).z⟩) := by
  obtain ⟨⟨a, ha⟩, hr⟩ := h
  refine ⟨⟨a, ha⟩, reads_congr (map1_reads hr op) fun ix hix => ?_⟩
  simp only [comp]; split_ifs <;> rfl

/-- The sum of the products of the components. -/
theorem ReadsV.sum {t : Ten ℝ} {s : List Nat} {v : List Nat → V3 ℝ} (h : ReadsV t s v) :
    Reads (sumLast t) s (fun ix => (v ix).x + (v ix).y + (v ix).z) := by
  obtain ⟨⟨a, ha⟩, hr⟩ := h
  refine reads_congr (sumLast_reads ha hr) fun ix hix => ?_
  rw [sum3]
  simp [comp]

/-- A scalar times a vector. -/
theorem ReadsV.scale {t u : Ten ℝ} {s : List Nat} {v : List Nat → V3 ℝ} {f : List Nat → ℝ} (h : ReadsV t s v) (h' : Reads u s f) :
    (∃ r, Tens.map2 (· * ·) t (unsq u) = .ok r ∧ ReadsV r s (fun ix => f ix • v ix) ∧ (t.shape = s ++ [3] → r.shape = s ++ [3]) ∧
      (u.shape = s → r.shape = s ++ [3])) ∧
    (∃ r, Tens.map2 (· * ·) (unsq u) t = .ok r ∧ ReadsV r s (fun ix => f ix • v ix)) := by
  obtain ⟨⟨a, ha⟩, hr⟩ := h
  have hu := unsq_reads h' 3
  constructor
  · obtain ⟨r, e, hrr, hs⟩ := map2_reads hr hu (fun x y : ℝ => x * y)
    refine ⟨r, e, ⟨?_, reads_congr hrr fun ix hix => ?_⟩, fun h => hs (Or.inl h), fun h => ?_⟩
    · have := map2_shape e
      rw [ha] at this
      exact bshape_snoc1 this
    · simp only [comp]; split_ifs <;> simp [mul_comm]
    · have e1 := map2_shape e
      rw [ha] at e1
      obtain ⟨c, hc⟩ := bshape_snoc1 e1
      have hf := hrr.1
      rw [hc] at hf ⊢
      -- the other dimensions are those of `u`
      have hfa : Fit a s := by have := hr.1; rw [ha] at this; exact (fit_snoc this).1
      obtain ⟨q, hq, _, hfull, _⟩ := brev_fit hfa h'.1
      have hq' : brev a.reverse u.shape.reverse = some s.reverse := by rw [hq, hfull (Or.inr (by rw [h]))]
      have : bshape (a ++ [3]) (u.shape ++ [1]) = some (s ++ [3]) := by
        simp only [bshape, List.reverse_append, List.reverse_singleton, List.singleton_append, brev, bdim_one, hq']
        simp
      have e2 : some (s ++ [3]) = some r.shape := this ▸ e1
      rw [hc] at e2
      exact (Option.some.inj e2).symm
  · obtain ⟨r, e, hrr, hs⟩ := map2_reads hu hr (fun x y : ℝ => x * y)
    refine ⟨r, e, ⟨?_, reads_congr hrr fun ix hix => ?_⟩⟩
    · have := map2_shape e
      rw [ha] at this
      exact bshape_1snoc this
    · simp only [comp]; split_ifs <;> simp

/-! ### Properties with a batch dimension -/

/-- A property of shape `(L, 3)`, at a batch element. -/
def row (t : Ten ℝ) (L b : Nat) : V3 ℝ := ⟨t.get [pick L b, 0], t.get [pick L b, 1], t.get [pick L b, 2]⟩

theorem toBatch_ok {t : Ten ℝ} {L N : Nat} {s : List Nat} (ht : t.shape = L :: s) (hL : L = 1 ∨ L = N) : toBatch N t = .ok (expand0 N t) := by
  unfold toBatch size0
  rw [ht, if_neg]
  simp only [List.headD_cons]; omega

/-- A property of shape `(L, 3)` after `convert_to_tensors_and_broadcast` and reshaping. -/
theorem prop_reads {t : Ten ℝ} {L N : Nat} (m : List Nat) (ht : t.shape = [L, 3]) (hL : L = 1 ∨ L = N) :
    ∃ t1 t2, toBatch N t = .ok t1 ∧ reshape (N :: (m ++ [3])) (List.replicate m.length 1 ++ [3]) t1 = .ok t2 ∧
      ReadsV t2 (N :: m) (fun ix => row t L (ix.headD 0)) := by
  obtain ⟨hs, hr⟩ := expand0_reads (N := N) ht
  refine ⟨expand0 N t, ?_⟩
  rw [toBatch_ok ht hL]
  by_cases hm : m = []
  · subst hm
    refine ⟨expand0 N t, rfl, ?_, ?_⟩
    · unfold reshape; rw [hs, if_neg (by simp)]
    · refine (readsV_of (a := [N]) (s := [N]) (by rw [hs]; rfl) hr).congr fun ix hix => ?_
      obtain ⟨i, jx, rfl, hj, hi⟩ := inR_cons hix
      cases hj
      simp [vec, row, pick]
  · obtain ⟨r, hv, hrs, hrr⟩ := viewB_reads (t := expand0 N t) (N := N) (by norm_num : 0 < 3) hs m
    refine ⟨r, rfl, ?_, ?_⟩
    · unfold reshape
      rw [hs, if_pos, hv]
      intro e
      have := congrArg List.length e
      simp at this
      exact hm this
    · refine (readsV_of (a := N :: List.replicate m.length 1) (s := N :: m) (by rw [hrs]; rfl) hrr).congr fun ix hix => ?_
      obtain ⟨i, jx, rfl, hj, hi⟩ := inR_cons hix
      have hg : ∀ c < 3, (expand0 N t).get [i, c] = t.get [pick L i, c] := by
        intro c hc
        have := hr.get hs (ix := [i, c]) (.cons hi (.cons hc .nil))
        simpa [pick] using this
      simp only [vec, List.cons_append, List.headD_cons, getLastD_cons, row]
      rw [hg 0 (by norm_num), hg 1 (by norm_num), hg 2 (by norm_num)]

/-- A tensor already of the shape of the points. -/
theorem full_reads {t : Ten ℝ} {N : Nat} (m : List Nat) (ht : t.shape = N :: (m ++ [3])) :
    ∃ t1, toBatch N t = .ok t1 ∧ t1.shape = N :: (m ++ [3]) ∧ ReadsV t1 (N :: m) (vec t.get) := by
  obtain ⟨hs, hr⟩ := expand0_reads (N := N) ht
  refine ⟨expand0 N t, toBatch_ok ht (Or.inr rfl), hs, ?_⟩
  refine (readsV_of (a := N :: m) (s := N :: m) (by rw [hs]; rfl) hr).congr fun ix hix => ?_
  obtain ⟨i, jx, rfl, hj, hi⟩ := inR_cons hix
  have e0 : (if N = 1 then 0 else i) = i := by split_ifs <;> omega
  simp [vec, e0]

/-- The direction to the light at each point: one for each batch element, or one for each point. -/
def Dirs (t : Ten ℝ) (N : Nat) (m : List Nat) (v : List Nat → V3 ℝ) : Prop :=
  (∃ L, t.shape = [L, 3] ∧ (L = 1 ∨ L = N) ∧ ∀ ix, InR (N :: m) ix → v ix = row t L (ix.headD 0)) ∨
  (t.shape = N :: (m ++ [3]) ∧ ∀ ix, InR (N :: m) ix → v ix = vec t.get ix)

theorem dirs_reads {t : Ten ℝ} {N : Nat} {m : List Nat} {v : List Nat → V3 ℝ} (h : Dirs t N m v) :
    ∃ t1 t2, toBatch N t = .ok t1 ∧ reshape (N :: (m ++ [3])) (List.replicate m.length 1 ++ [3]) t1 = .ok t2 ∧ ReadsV t2 (N :: m) v := by
  rcases h with ⟨L, ht, hL, hv⟩ | ⟨ht, hv⟩
  · obtain ⟨t1, t2, e1, e2, hr⟩ := prop_reads m ht hL
    exact ⟨t1, t2, e1, e2, hr.congr fun ix hix => (hv ix hix).symm⟩
  · obtain ⟨t1, e1, hs, hr⟩ := full_reads m ht
    refine ⟨t1, t1, e1, ?_, hr.congr fun ix hix => (hv ix hix).symm⟩
    unfold reshape
    rw [hs, if_neg (by simp)]

theorem dirs_size {t : Ten ℝ} {N : Nat} {m : List Nat} {v : List Nat → V3 ℝ} (h : Dirs t N m v) (hN : 0 < N) : size0 t ≤ N := by
  unfold size0
  rcases h with ⟨L, ht, hL, _⟩ | ⟨ht, _⟩ <;> rw [ht] <;> simp only [List.headD_cons] <;> omega

theorem ones_eq {t : Ten ℝ} {N : Nat} {m : List Nat} (h : t.shape = N :: (m ++ [3])) : ones t = List.replicate m.length 1 := by
  unfold ones
  rw [h]
  congr 1
  simp

/-- `diffuse` is Lambert's law at every point, with the colour of the batch element. -/
theorem diffuse_spec {normals color direction : Ten ℝ} {N L : Nat} {m : List Nat} {v : List Nat → V3 ℝ} (hN : 0 < N)
    (hn : normals.shape = N :: (m ++ [3])) (hc : color.shape = [L, 3]) (hL : L = 1 ∨ L = N) (hd : Dirs direction N m v) :
    ∃ r, diffuse normals color direction = .ok r ∧ r.shape = N :: (m ++ [3]) ∧
      ReadsV r (N :: m) (fun ix => lambert (vec normals.get ix) (v ix) • row color L (ix.headD 0)) := by
  have hmax : max (size0 normals) (max (size0 color) (size0 direction)) = N := by
    have h1 := dirs_size hd hN
    have h2 : size0 normals = N := by simp [size0, hn]
    have h3 : size0 color = L := by simp [size0, hc]
    omega
  obtain ⟨n1, en, hns, hnr⟩ := full_reads m hn
  obtain ⟨c1, c2, ec1, ec2, hcr⟩ := prop_reads (N := N) m hc hL
  obtain ⟨d1, d2, ed1, ed2, hdr⟩ := dirs_reads hd
  obtain ⟨p, ep, hpr, hps⟩ := (hnr.normalize).map2 hdr.normalize (fun x y => x * y)
  have hps' : p.shape = (N :: m) ++ [3] := hps (Or.inl hns)
  have hang := map1_reads hpr.sum (max 0)
  obtain ⟨⟨r, er, hr, _, hrs⟩, _⟩ := hcr.scale hang
  have hsh : (map1 (max 0) (sumLast p)).shape = N :: m := by
    simp only [map1, sumLast, hps', List.dropLast_concat]
  refine ⟨r, ?_, hrs hsh, hr.congr fun ix hix => ?_⟩
  · unfold diffuse
    rw [hmax]
    simp only [en, ec1, ed1, bind, Except.bind, ones_eq hns, hns, ed2, ec2, ep, er]
  · rfl

/-- A property of shape `(L,)` in the same way. -/
theorem scalar_reads {t : Ten ℝ} {L N : Nat} (m : List Nat) (ht : t.shape = [L]) (hL : L = 1 ∨ L = N) :
    ∃ t1 t2, toBatch N t = .ok t1 ∧ reshape (N :: (m ++ [3])) (List.replicate m.length 1) t1 = .ok t2 ∧
      Reads t2 (N :: m) (fun ix => t.get [pick L (ix.headD 0)]) := by
  obtain ⟨hs, hr⟩ := expand0_reads (N := N) ht
  obtain ⟨r, hv, hrs, hrr⟩ := viewB_reads1 (t := expand0 N t) (N := N) hs m
  refine ⟨expand0 N t, r, toBatch_ok ht hL, ?_, ?_⟩
  · unfold reshape
    rw [hs, if_pos, hv]
    intro e
    have := congrArg List.length e
    simp at this
  · refine reads_congr hrr fun ix hix => ?_
    obtain ⟨i, jx, rfl, hj, hi⟩ := inR_cons hix
    have := hr.get hs (ix := [i]) (.cons hi .nil)
    simpa [pick] using this

/-- `specular` at every point. -/
theorem specular_spec {points normals direction color camera shininess : Ten ℝ} {N L C M : Nat} {m : List Nat} {v : List Nat → V3 ℝ}
    (hN : 0 < N) (hp : points.shape = N :: (m ++ [3])) (hn : normals.shape = N :: (m ++ [3])) (hc : color.shape = [L, 3])
    (hL : L = 1 ∨ L = N) (hd : Dirs direction N m v) (hcam : camera.shape = [C, 3]) (hC : C = 1 ∨ C = N) (hs : shininess.shape = [M])
    (hM : M = 1 ∨ M = N) :
    ∃ r, specular points normals direction color camera shininess = .ok r ∧ r.shape = N :: (m ++ [3]) ∧
      ReadsV r (N :: m) (fun ix => (gloss (vec points.get ix) (vec normals.get ix) (v ix) (row camera C (ix.headD 0)) ^
        shininess.get [pick M (ix.headD 0)]) • row color L (ix.headD 0)) := by
  have hmax : max (size0 points) (max (size0 color) (max (size0 direction) (max (size0 camera) (size0 shininess)))) = N := by
    have h1 := dirs_size hd hN
    have h2 : size0 points = N := by simp [size0, hp]
    have h3 : size0 color = L := by simp [size0, hc]
    have h4 : size0 camera = C := by simp [size0, hcam]
    have h5 : size0 shininess = M := by simp [size0, hs]
    omega
  have hself : ∀ {t : Ten ℝ}, t.shape = N :: (m ++ [3]) → ReadsV t (N :: m) (vec t.get) := by
    intro t ht
    refine readsV_of (a := N :: m) (s := N :: m) (by rw [ht]; rfl) ?_
    have := reads_self t
    rwa [ht] at this
  obtain ⟨p1, ep1, _, _⟩ := full_reads m hp
  obtain ⟨c1, c2, ec1, ec2, hcr⟩ := prop_reads (N := N) m hc hL
  obtain ⟨k1, k2, ek1, ek2, hkr⟩ := prop_reads (N := N) m hcam hC
  obtain ⟨d1, d2, ed1, ed2, hdr⟩ := dirs_reads hd
  obtain ⟨s1, s2, es1, es2, hsr⟩ := scalar_reads (N := N) m hs hM
  have hnn := (hself hn).normalize
  have hdn := hdr.normalize
  obtain ⟨p, ep, hpr, hps⟩ := hnn.map2 hdn (fun x y => x * y)
  have hps' : p.shape = (N :: m) ++ [3] := hps (Or.inl hn)
  have hcos := hpr.sum
  have hmask := map1_reads hcos (fun x : ℝ => if 0 < x then (1 : ℝ) else 0)
  obtain ⟨w, ew, hwr, hws⟩ := hkr.map2 (hself hp) (fun x y => x - y)
  have hwn := hwr.normalize
  obtain ⟨_, q, eq, hqr⟩ := hnn.scale hcos
  obtain ⟨f, ef, hfr, _⟩ := (hdn.map1 (fun x => -x)).map2 (hqr.map1 (2 * ·)) (fun x y => x + y)
  obtain ⟨g, eg, hgr, hgs⟩ := hwn.map2 hfr (fun x y => x * y)
  have hws' : w.shape = (N :: m) ++ [3] := hws (Or.inr hp)
  have hgs' : g.shape = (N :: m) ++ [3] := hgs (Or.inl hws')
  have hrelu := map1_reads hgr.sum (max 0)
  obtain ⟨a, ea, har, has⟩ := map2_reads hrelu hmask (fun x y : ℝ => x * y)
  have hsh : (map1 (max 0) (sumLast g)).shape = N :: m := by
    simp only [map1, sumLast, hgs', List.dropLast_concat]
  obtain ⟨b, eb, hbr, hbs⟩ := map2_reads har hsr (fun x y : ℝ => x ^ y)
  obtain ⟨⟨r, er, hr, _, hrs⟩, _⟩ := hcr.scale hbr
  refine ⟨r, ?_, hrs (hbs (Or.inl (has (Or.inl hsh)))), hr.congr fun ix hix => ?_⟩
  · unfold specular
    rw [hmax]
    simp only [ones_eq hp, hp, hn, ne_eq, not_true_eq_false, if_false, ep1, ec1, ek1, ed1, es1, bind, Except.bind, ed2, ec2, ek2, es2,
      ep, ew, eq, ef, eg, ea, eb, er]
  · congr 2
    have hdot : ∀ a b : V3 ℝ, a.x * b.x + a.y * b.y + a.z * b.z = V3.dot a b := fun _ _ => rfl
    simp only [gloss, hdot]
    split_ifs with h0
    · rw [mul_one]
      congr 1
      have e1 : (⟨(row camera C (ix.headD 0)).x - (vec points.get ix).x, (row camera C (ix.headD 0)).y - (vec points.get ix).y,
        (row camera C (ix.headD 0)).z - (vec points.get ix).z⟩ : V3 ℝ) = row camera C (ix.headD 0) - vec points.get ix := rfl
      rw [e1]
      simp only [mirror, V3.dot, V3.sub_x, V3.sub_y, V3.sub_z, V3.smul_x, V3.smul_y, V3.smul_z]
      ring
    · rw [mul_zero]

/-! ### Lights -/

/-- The properties of the lights have shape `(L, 3)`. -/
def Lights.Ok (l : Lights) (L : Nat) : Prop :=
  match l with
  | .directional a d s r => a.shape = [L, 3] ∧ d.shape = [L, 3] ∧ s.shape = [L, 3] ∧ r.shape = [L, 3]
  | .point a d s r => a.shape = [L, 3] ∧ d.shape = [L, 3] ∧ s.shape = [L, 3] ∧ r.shape = [L, 3]
  | .ambient a => a.shape = [L, 3]

/-- Specification: the diffuse light of the light of batch element `b` at a point `p` with normal `n`. -/
def Lights.diffuseAt (l : Lights) (L b : Nat) (p n : V3 ℝ) : V3 ℝ :=
  match l with
  | .directional _ d _ dir => lambert n (row dir L b) • row d L b
  | .point _ d _ loc => lambert n (row loc L b - p) • row d L b
  | .ambient _ => 0

/-- Specification: its specular light. -/
def Lights.specularAt (l : Lights) (L b : Nat) (p n cam : V3 ℝ) (s : ℝ) : V3 ℝ :=
  match l with
  | .directional _ _ c dir => (gloss p n (row dir L b) cam ^ s) • row c L b
  | .point _ _ c loc => (gloss p n (row loc L b - p) cam ^ s) • row c L b
  | .ambient _ => 0

theorem row_reads {t : Ten ℝ} {L N : Nat} (ht : t.shape = [L, 3]) (hL : L = 1 ∨ L = N) : ReadsV t [N] (fun ix => row t L (ix.headD 0)) := by
  have hr : Reads t ([N] ++ [3]) (fun ix => t.get [pick L (ix.headD 0), ix.getLastD 0]) := by
    refine ⟨?_, ?_⟩
    · rw [ht]; exact fit_cons hL (fitR_refl [3]) rfl
    · intro ix hix
      obtain ⟨jx, c, rfl, hj, hc⟩ := inR_snoc hix
      obtain ⟨i, kx, rfl, hk, hi⟩ := inR_cons hj
      cases hk
      rw [ht]
      have e : bidx [L, 3] ([i] ++ [c]) = [pick L i, c] := by
        simp [bidx, irev, pick]
      rw [e]
      rfl
  refine (readsV_of (a := [L]) (s := [N]) (by rw [ht]; rfl) hr).congr fun ix hix => ?_
  obtain ⟨i, kx, rfl, hk, hi⟩ := inR_cons hix
  cases hk
  simp [vec, row]

theorem mid_readsV {t : Ten ℝ} {L N : Nat} (ht : t.shape = [L, 3]) (hL : L = 1 ∨ L = N) (m : List Nat) :
    ReadsV (mid m.length t) (N :: m) (fun ix => row t L (ix.headD 0)) := by
  obtain ⟨hs, hr⟩ := mid_reads ht hL m
  refine (readsV_of (a := L :: List.replicate m.length 1) (s := N :: m) (by rw [hs]; rfl) hr).congr fun ix hix => ?_
  obtain ⟨i, kx, rfl, hk, hi⟩ := inR_cons hix
  simp only [vec, row, List.cons_append, List.headD_cons, getLastD_cons, pick]

theorem self_readsV {t : Ten ℝ} {N : Nat} {m : List Nat} (ht : t.shape = N :: (m ++ [3])) : ReadsV t (N :: m) (vec t.get) := by
  refine readsV_of (a := N :: m) (s := N :: m) (by rw [ht]; rfl) ?_
  have := reads_self t
  rwa [ht] at this

theorem ReadsV.vec_get {t : Ten ℝ} {s : List Nat} {v : List Nat → V3 ℝ} (h : ReadsV t s v) (hs : t.shape = s ++ [3]) {ix : List Nat}
    (hix : InR s ix) : vec t.get ix = v ix := by
  have hg : ∀ c < 3, t.get (ix ++ [c]) = comp (v ix) c := by
    intro c hc
    have := h.2.get hs (inR_append hix (.cons hc .nil))
    simpa using this
  simp only [vec, hg 0 (by norm_num), hg 1 (by norm_num), hg 2 (by norm_num)]
  simp [comp]

/-- The direction from the points to a point light. -/
theorem location_dirs {loc points : Ten ℝ} {L N : Nat} {m : List Nat} (hm : m = [] ∨ m.length = 3) (hl : loc.shape = [L, 3])
    (hL : L = 1 ∨ L = N) (hp : points.shape = N :: (m ++ [3])) :
    ∃ d, map2 (· - ·) (reshapeLocation loc points) points = .ok d ∧ Dirs d N m (fun ix => row loc L (ix.headD 0) - vec points.get ix) := by
  have hr : ReadsV (reshapeLocation loc points) (N :: m) (fun ix => row loc L (ix.headD 0)) := by
    unfold reshapeLocation
    rw [hl, hp]
    rcases hm with rfl | hm
    · rw [if_pos (by simp)]
      exact row_reads hl hL
    · rw [if_neg (by simp [hm])]
      have := mid_readsV hl hL m
      rwa [hm] at this
  obtain ⟨d, e, hd, hs⟩ := hr.map2 (self_readsV hp) (fun x y => x - y)
  have hs' := hs (Or.inr hp)
  refine ⟨d, e, Or.inr ⟨hs', fun ix hix => ?_⟩⟩
  rw [hd.vec_get hs' hix]
  rfl

theorem zeros_reads {a points : Ten ℝ} {L N : Nat} {m : List Nat} (ha : a.shape = [L, 3]) (hp : points.shape = N :: (m ++ [3])) :
    (zeros a points).shape = N :: (m ++ [3]) ∧ ReadsV (zeros a points) (N :: m) (fun _ => 0) := by
  have hs : (zeros a points).shape = N :: (m ++ [3]) := by
    simp only [zeros, ha, hp, ← List.cons_append, List.dropLast_concat]
    rfl
  refine ⟨hs, (self_readsV hs).congr fun ix hix => ?_⟩
  simp only [zeros, vec]
  rfl

/-- The diffuse light of any kind of lights. -/
theorem lights_diffuse {l : Lights} {normals points : Ten ℝ} {L N : Nat} {m : List Nat} (hN : 0 < N) (hm : m = [] ∨ m.length = 3)
    (hl : l.Ok L) (hL : L = 1 ∨ L = N) (hp : points.shape = N :: (m ++ [3])) (hn : normals.shape = N :: (m ++ [3])) :
    ∃ r, l.diffuse normals points = .ok r ∧ r.shape = N :: (m ++ [3]) ∧
      ReadsV r (N :: m) (fun ix => l.diffuseAt L (ix.headD 0) (vec points.get ix) (vec normals.get ix)) := by
  cases l with
  | directional a d s dir =>
    obtain ⟨_, hd, _, hdir⟩ := hl
    exact diffuse_spec hN hn hd hL (Or.inl ⟨L, hdir, hL, fun _ _ => rfl⟩)
  | point a d s loc =>
    obtain ⟨_, hd, _, hloc⟩ := hl
    obtain ⟨dir, e, hdir⟩ := location_dirs hm hloc hL hp
    obtain ⟨r, er, h⟩ := diffuse_spec hN hn hd hL hdir
    refine ⟨r, ?_, h⟩
    simp only [Lights.diffuse, e, bind, Except.bind, er]
  | ambient a =>
    obtain ⟨h1, h2⟩ := zeros_reads hl hp
    exact ⟨_, rfl, h1, h2⟩

/-- The specular light of any kind of lights. -/
theorem lights_specular {l : Lights} {normals points camera shininess : Ten ℝ} {L N C M : Nat} {m : List Nat} (hN : 0 < N)
    (hm : m = [] ∨ m.length = 3) (hl : l.Ok L) (hL : L = 1 ∨ L = N) (hp : points.shape = N :: (m ++ [3]))
    (hn : normals.shape = N :: (m ++ [3])) (hcam : camera.shape = [C, 3]) (hC : C = 1 ∨ C = N) (hs : shininess.shape = [M])
    (hM : M = 1 ∨ M = N) :
    ∃ r, l.specular normals points camera shininess = .ok r ∧ r.shape = N :: (m ++ [3]) ∧
      ReadsV r (N :: m) (fun ix => l.specularAt L (ix.headD 0) (vec points.get ix) (vec normals.get ix) (row camera C (ix.headD 0))
        (shininess.get [pick M (ix.headD 0)])) := by
  cases l with
  | directional a d s dir =>
    obtain ⟨_, _, hcol, hdir⟩ := hl
    exact specular_spec hN hp hn hcol hL (Or.inl ⟨L, hdir, hL, fun _ _ => rfl⟩) hcam hC hs hM
  | point a d s loc =>
    obtain ⟨_, _, hcol, hloc⟩ := hl
    obtain ⟨dir, e, hdir⟩ := location_dirs hm hloc hL hp
    obtain ⟨r, er, h⟩ := specular_spec hN hp hn hcol hL hdir hcam hC hs hM
    refine ⟨r, ?_, h⟩
    simp only [Lights.specular, e, bind, Except.bind, er]
  | ambient a =>
    obtain ⟨h1, h2⟩ := zeros_reads hl hp
    exact ⟨_, rfl, h1, h2⟩

/-! ### Colours of fragments -/

/-- Product of colours. -/
def had (a b : V3 ℝ) : V3 ℝ := ⟨a.x * b.x, a.y * b.y, a.z * b.z⟩

theorem irev_inR {a s ix : List Nat} (h : FitR a s) (hl : a.length = s.length) (hix : InR s ix) : InR a (irev a ix) := by
  induction h generalizing ix with
  | nil s =>
    have : s = [] := by simpa using hl.symm
    subst this
    cases hix; exact .nil
  | cons h1 _ ih =>
    obtain ⟨i, jx, rfl, hj, hi⟩ := inR_cons hix
    refine .cons ?_ (ih (by simpa using hl) hj)
    split_ifs with h2
    · omega
    · omega

/-- A tensor of shape `s` read at a larger shape. -/
theorem ReadsV.up {t : Ten ℝ} {s s' : List Nat} {v : List Nat → V3 ℝ} (h : ReadsV t s v) (hs : t.shape = s ++ [3]) (hf : Fit s s')
    (hl : s.length = s'.length) : ReadsV t s' (fun ix => v (bidx s ix)) := by
  have hr : Reads t (s' ++ [3]) (fun ix => t.get (bidx s ix.dropLast ++ [ix.getLastD 0])) := by
    refine ⟨by rw [hs]; exact fit_append hf (fitR_refl [3]) rfl, fun ix hix => ?_⟩
    obtain ⟨jx, c, rfl, hj, hc⟩ := inR_snoc hix
    rw [hs, bidx_snoc]
    simp
  refine (readsV_of (a := s) (s := s') hs hr).congr fun ix hix => ?_
  have hin : InR s (bidx s ix) := by
    have := irev_inR hf (by simpa using hl) (inR_reverse hix)
    have := inR_reverse this
    simpa [bidx] using this
  rw [← h.vec_get hs hin]
  simp [vec]

/-- A property of shape `(M, 3)` used together with `(…, K, 3)`: it varies with the last dimension but one. -/
theorem last_reads {t : Ten ℝ} {M K : Nat} (s : List Nat) (ht : t.shape = [M, 3]) (hM : M = 1 ∨ M = K) :
    ReadsV t (s ++ [K]) (fun ix => row t M (ix.getLastD 0)) := by
  have hr : Reads t ((s ++ [K]) ++ [3]) (fun ix => t.get [pick M (ix.dropLast.getLastD 0), ix.getLastD 0]) := by
    refine ⟨?_, ?_⟩
    · rw [ht]
      simp only [Fit, List.reverse_append, List.reverse_singleton, List.singleton_append]
      exact .cons (Or.inr rfl) (.cons hM (.nil _))
    · intro ix hix
      obtain ⟨jx, c, rfl, hj, hc⟩ := inR_snoc hix
      obtain ⟨kx, k, rfl, hk, hk'⟩ := inR_snoc hj
      rw [ht]
      have e : bidx [M, 3] ((kx ++ [k]) ++ [c]) = [pick M k, c] := by
        simp [bidx, irev, pick]
      rw [e]
      simp only [List.dropLast_concat, List.getLastD_concat]
  refine (readsV_of (a := [M]) (s := s ++ [K]) (by rw [ht]; rfl) hr).congr fun ix hix => ?_
  simp only [vec, row, List.dropLast_concat, List.getLastD_concat]

/-- Shapes of the material properties. -/
def Materials.Ok (m : Materials) (M : Nat) : Prop :=
  m.ambient.shape = [M, 3] ∧ m.diffuse.shape = [M, 3] ∧ m.specular.shape = [M, 3] ∧ m.shininess.shape = [M]

theorem amb_ok {l : Lights} {L : Nat} (h : l.Ok L) : l.amb.shape = [L, 3] := by
  cases l with
  | directional a d s r => exact h.1
  | point a d s r => exact h.1
  | ambient a => exact h

theorem amb_reads {a b : Ten ℝ} {M L N : Nat} (ha : a.shape = [M, 3]) (hb : b.shape = [L, 3]) (hM : M = 1 ∨ M = N) (hL : L = 1 ∨ L = N) :
    ∃ r A, map2 (· * ·) a b = .ok r ∧ r.shape = [A, 3] ∧ (A = 1 ∨ A = N) ∧ ∀ n < N, row r A n = had (row a M n) (row b L n) := by
  have hA : ∃ A, bdim M L = some A ∧ (A = 1 ∨ A = N) := by
    rcases hM with rfl | rfl
    · exact ⟨L, one_bdim _, hL⟩
    · rcases hL with rfl | rfl
      · exact ⟨M, bdim_one _, Or.inr rfl⟩
      · exact ⟨L, bdim_self _, Or.inr rfl⟩
  obtain ⟨A, hA, hA'⟩ := hA
  have hsh : bshape a.shape b.shape = some [A, 3] := by
    rw [ha, hb]; simp [bshape, brev, hA, bdim_self]
  obtain ⟨r, e, hr, _⟩ := (row_reads ha hM).map2 (row_reads hb hL) (fun x y => x * y)
  have hrs : r.shape = [A, 3] := by
    have := map2_shape e
    rw [hsh] at this
    exact (Option.some.inj this).symm
  refine ⟨r, A, e, hrs, hA', fun n hn => ?_⟩
  have h1 := row_reads hrs hA'
  have h2 : ∀ c < 3, comp (row r A n) c = comp (had (row a M n) (row b L n)) c := by
    intro c hc
    have e1 := h1.2.2 ([n] ++ [c]) (.cons hn (.cons hc .nil))
    have e2 := hr.2.2 ([n] ++ [c]) (.cons hn (.cons hc .nil))
    rw [e1] at e2
    simpa [had] using e2
  ext
  · simpa [comp] using h2 0 (by norm_num)
  · simpa [comp] using h2 1 (by norm_num)
  · simpa [comp] using h2 2 (by norm_num)

/-- Specification: the colour of a fragment with position `p`, normal `n` and texel `t` of batch element `b`, the material's diffuse and
specular colours being those of entry `k`. -/
def colorAt (l : Lights) (L : Nat) (mt : Materials) (M : Nat) (camera : Ten ℝ) (C : Nat) (b k : Nat) (p n t : V3 ℝ) : V3 ℝ :=
  had (had (row mt.ambient M b) (row l.amb L b) + had (row mt.diffuse M k) (l.diffuseAt L b p n)) t +
    had (row mt.specular M k) (l.specularAt L b p n (row camera C b) (mt.shininess.get [pick M b]))

/-- The colours of all fragments.  Lights and cameras are those of the batch element.  The diffuse and specular colours of a batch of
materials are those of the index of the fragment in its pixel: the number of fragments `K` must be one or that of the materials, and becomes it. -/
theorem shade_spec {l : Lights} {mt : Materials} {points normals camera texels : Ten ℝ} {L N C M H W K K' : Nat} (hN : 0 < N)
    (hl : l.Ok L) (hL : L = 1 ∨ L = N) (hp : points.shape = [N, H, W, K, 3]) (hn : normals.shape = [N, H, W, K, 3])
    (ht : texels.shape = [N, H, W, K, 3]) (hcam : camera.shape = [C, 3]) (hC : C = 1 ∨ C = N) (hmt : mt.Ok M) (hM : M = 1 ∨ M = N)
    (hK : (M = 1 ∧ K' = K) ∨ (M = K ∧ K' = K) ∨ (K = 1 ∧ K' = M)) :
    ∃ r, shade points normals l camera mt texels = .ok r ∧ r.shape = [N, H, W, K', 3] ∧
      ∀ n < N, ∀ h < H, ∀ w < W, ∀ k < K', vec r.get [n, h, w, k] =
        colorAt l L mt M camera C n k (vec points.get [n, h, w, pick K k]) (vec normals.get [n, h, w, pick K k])
          (vec texels.get [n, h, w, pick K k]) := by
  obtain ⟨ma, md, ms, msh⟩ := hmt
  obtain ⟨ld, eld, hlds, hldr⟩ := lights_diffuse (m := [H, W, K]) hN (Or.inr rfl) hl hL hp hn
  obtain ⟨ls, els, hlss, hlsr⟩ := lights_specular (m := [H, W, K]) hN (Or.inr rfl) hl hL hp hn hcam hC msh hM
  obtain ⟨a, A, ea, has, hA, har⟩ := amb_reads ma (amb_ok hl) hM hL
  have hKK : K = 1 ∨ K = K' := by omega
  have hMK : M = 1 ∨ M = K' := by omega
  have hfit : Fit [N, H, W, K] [N, H, W, K'] := by
    have h0 : Fit [K] [K'] := .cons hKK (.nil _)
    exact fit_append (a := [N, H, W]) (fitR_refl _) h0 rfl
  have hld := hldr.up (s := [N, H, W, K]) hlds hfit rfl
  have hls := hlsr.up (s := [N, H, W, K]) hlss hfit rfl
  have htx := (self_readsV (m := [H, W, K]) ht).up (s := [N, H, W, K]) ht hfit rfl
  have hmd : ReadsV mt.diffuse [N, H, W, K'] _ := last_reads [N, H, W] md hMK
  have hms : ReadsV mt.specular [N, H, W, K'] _ := last_reads [N, H, W] ms hMK
  -- the products with the material fill the whole shape
  have full : ∀ {x y r : Ten ℝ}, x.shape = [M, 3] → y.shape = [N, H, W, K, 3] → map2 (fun x y : ℝ => x * y) x y = .ok r →
      r.shape = [N, H, W, K', 3] := by
    intro x y r hx hy e
    have := map2_shape e
    rw [hx, hy] at this
    have hb : bdim M K = some K' := by
      rcases hK with ⟨rfl, rfl⟩ | ⟨rfl, rfl⟩ | ⟨rfl, rfl⟩
      · exact one_bdim _
      · exact bdim_self _
      · exact bdim_one _
    have hb2 : bshape [M, 3] [N, H, W, K, 3] = some [N, H, W, K', 3] := by
      simp [bshape, brev, hb, bdim_self]
    rw [hb2] at this
    exact (Option.some.inj this).symm
  obtain ⟨d, ed, hdr, _⟩ := hmd.map2 hld (fun x y => x * y)
  obtain ⟨sp, es, hsr, _⟩ := hms.map2 hls (fun x y => x * y)
  have hds := full md hlds ed
  have hss := full ms hlss es
  have hamb : ReadsV (mid 3 a) [N, H, W, K'] (fun ix => row a A (ix.headD 0)) := mid_readsV has hA [H, W, K']
  obtain ⟨x, ex, hxr, hxs⟩ := hamb.map2 hdr (fun x y => x + y)
  have hxs' := hxs (Or.inr hds)
  obtain ⟨y, ey, hyr, hys⟩ := hxr.map2 htx (fun x y => x * y)
  have hys' := hys (Or.inl hxs')
  obtain ⟨r, er, hrr, hrs⟩ := hyr.map2 hsr (fun x y => x + y)
  have hrs' := hrs (Or.inl hys')
  refine ⟨r, ?_, hrs', ?_⟩
  · unfold shade applyLighting
    simp only [eld, els, ea, ed, es, bind, Except.bind, hn, has, hds, List.length_cons, List.length_nil]
    simp only [ex, ey, er, if_true, if_false, show ¬ (0 + 1 + 1 + 1 + 1 + 1 = 2) by norm_num, false_and,
      show (0 + 1 + 1 ≠ 0 + 1 + 1 + 1 + 1 + 1) by norm_num, ne_eq, not_false_eq_true]
  · intro n hn' h hh w hw k hk
    have hix : InR [N, H, W, K'] [n, h, w, k] := .cons hn' (.cons hh (.cons hw (.cons hk .nil)))
    rw [hrr.vec_get hrs' hix]
    have hb : bidx [N, H, W, K] [n, h, w, k] = [n, h, w, pick K k] := by
      have e1 : (if N = 1 then 0 else n) = n := by split_ifs <;> omega
      have e2 : (if H = 1 then 0 else h) = h := by split_ifs <;> omega
      have e3 : (if W = 1 then 0 else w) = w := by split_ifs <;> omega
      simp [bidx, irev, pick, e1, e2, e3]
    simp only [hb, List.headD_cons]
    rw [har n hn']
    rfl

/-- A batch of several materials, and several fragments of a pixel, not as many: an error. -/
theorem shade_error {l : Lights} {mt : Materials} {points normals camera texels : Ten ℝ} {L N C M H W K : Nat} (hN : 0 < N)
    (hl : l.Ok L) (hL : L = 1 ∨ L = N) (hp : points.shape = [N, H, W, K, 3]) (hn : normals.shape = [N, H, W, K, 3])
    (hcam : camera.shape = [C, 3]) (hC : C = 1 ∨ C = N) (hmt : mt.Ok M) (hM : M = 1 ∨ M = N)
    (hK : M ≠ 1 ∧ K ≠ 1 ∧ M ≠ K) : shade points normals l camera mt texels = .error .runtime := by
  obtain ⟨ma, md, ms, msh⟩ := hmt
  obtain ⟨ld, eld, hlds, hldr⟩ := lights_diffuse (m := [H, W, K]) hN (Or.inr rfl) hl hL hp hn
  obtain ⟨ls, els, hlss, hlsr⟩ := lights_specular (m := [H, W, K]) hN (Or.inr rfl) hl hL hp hn hcam hC msh hM
  obtain ⟨a, A, ea, has, hA, har⟩ := amb_reads ma (amb_ok hl) hM hL
  have hb : bdim M K = none := by simp [bdim, hK.1, hK.2.1, hK.2.2]
  have hd : map2 (fun x y : ℝ => x * y) mt.diffuse ld = .error .runtime := by
    unfold map2
    rw [md, hlds]
    simp [bshape, brev, hb, bdim_self]
  unfold shade applyLighting
  simp only [eld, els, ea, hd, bind, Except.bind]

end

end P3D.Light
