/-
Proofs about `Gltf`: the scene graph and the transforms of its nodes, and examples.
-/
import Verif.GltfProps

set_option linter.unusedSectionVars false
set_option linter.unusedSimpArgs false
set_option linter.unusedVariables false

namespace P3D.Gltf
open Text Ply T3d

variable {K : Type} [Field K] [LinearOrder K] [IsStrictOrderedRing K] [FloorRing K]

/-! ### The queue -/

/-- The entries of depth `k`. -/
def levels (kids : T3 K × Nat → List (T3 K × Nat)) (q : List (T3 K × Nat)) : Nat → List (T3 K × Nat)
  | 0 => q
  | k + 1 => (levels kids q k).flatMap kids

theorem levels_succ (kids : T3 K × Nat → List (T3 K × Nat)) (q : List (T3 K × Nat)) (k : Nat) :
    levels kids q (k + 1) = levels kids (q.flatMap kids) k := by
  induction k with
  | zero => rfl
  | succ k ih => rw [levels, ih]; rfl

theorem queueLoop_append (f : Visit K) (out : T3 K × Nat → List (Option Str × Mesh K)) (kids : T3 K × Nat → List (T3 K × Nat))
    (l r : List (T3 K × Nat)) (hf : ∀ x ∈ l, f x = .ok (out x, kids x)) (fuel : Nat) (acc : List (Option Str × Mesh K)) :
    queueLoop f (fuel + l.length) (l ++ r) acc = queueLoop f fuel (r ++ l.flatMap kids) (acc ++ l.flatMap out) := by
  induction l generalizing r acc with
  | nil => simp
  | cons x l ih =>
    rw [List.length_cons, ← Nat.add_assoc, List.cons_append, queueLoop, hf x (by simp)]
    simp only
    rw [List.append_assoc, ih (r ++ kids x) (fun y hy => hf y (by simp [hy]))]
    simp

theorem queueLoop_short (f : Visit K) (out : T3 K × Nat → List (Option Str × Mesh K)) (kids : T3 K × Nat → List (T3 K × Nat))
    (l r : List (T3 K × Nat)) (hf : ∀ x ∈ l, f x = .ok (out x, kids x)) (fuel : Nat) (h : fuel < l.length)
    (acc : List (Option Str × Mesh K)) : queueLoop f fuel (l ++ r) acc = .ok none := by
  induction l generalizing r acc fuel with
  | nil => simp at h
  | cons x l ih =>
    cases fuel with
    | zero => rfl
    | succ n =>
      rw [List.cons_append, queueLoop, hf x (by simp)]
      simp only
      rw [List.append_assoc]
      exact ih (r ++ kids x) (fun y hy => hf y (by simp [hy])) n (by simpa using h) _

/-- **The order of the meshes.** If no node raises and the nodes end at some depth, the loop ends after one round for each
entry and returns the meshes by depth, and from left to right within a depth. -/
theorem queueLoop_levels (f : Visit K) (out : T3 K × Nat → List (Option Str × Mesh K)) (kids : T3 K × Nat → List (T3 K × Nat))
    (N : Nat) (q : List (T3 K × Nat)) (hf : ∀ k, k < N → ∀ x ∈ levels kids q k, f x = .ok (out x, kids x))
    (hN : levels kids q N = []) (fuel : Nat)
    (hfuel : ((List.range N).map fun k => (levels kids q k).length).sum ≤ fuel) (acc : List (Option Str × Mesh K)) :
    queueLoop f fuel q acc = .ok (some (acc ++ (List.range N).flatMap fun k => (levels kids q k).flatMap out)) := by
  induction N generalizing q fuel acc with
  | zero =>
    have : q = [] := hN
    subst this
    simp [queueLoop]
  | succ N ih =>
    rw [List.range_succ_eq_map, List.map_cons, List.sum_cons, List.map_map] at hfuel
    have h0 : (levels kids q 0).length = q.length := rfl
    obtain ⟨fuel', rfl⟩ : ∃ f', fuel = f' + q.length := ⟨fuel - q.length, by omega⟩
    have := queueLoop_append f out kids q [] (fun x hx => hf 0 (by omega) x hx) fuel' acc
    rw [List.append_nil, List.nil_append] at this
    rw [this, ih (q.flatMap kids) (fun k hk x hx => hf (k + 1) (by omega) x (by rwa [levels_succ])) (by rwa [← levels_succ]) fuel' ?_]
    · rw [List.range_succ_eq_map, List.flatMap_cons, List.flatMap_map, List.append_assoc]
      simp only [levels_succ]
      rfl
    · have e : ((fun k => (levels kids q k).length) ∘ Nat.succ) = fun k => (levels kids (q.flatMap kids) k).length := by
        funext k
        simp only [Function.comp_def, Nat.succ_eq_add_one, levels_succ]
      rw [e, h0] at hfuel
      omega

/-- **Cycles.** If there are nodes at every depth, the loop never ends. -/
theorem queueLoop_cycle (f : Visit K) (out : T3 K × Nat → List (Option Str × Mesh K)) (kids : T3 K × Nat → List (T3 K × Nat))
    (q : List (T3 K × Nat)) (hf : ∀ k, ∀ x ∈ levels kids q k, f x = .ok (out x, kids x))
    (hN : ∀ k, levels kids q k ≠ []) (fuel : Nat) (acc : List (Option Str × Mesh K)) :
    queueLoop f fuel q acc = .ok none := by
  induction fuel using Nat.strong_induction_on generalizing q acc with
  | _ fuel ih =>
    by_cases h : fuel < q.length
    · have := queueLoop_short f out kids q [] (hf 0) fuel h acc
      rwa [List.append_nil] at this
    · have hq : 0 < q.length := List.length_pos_of_ne_nil (hN 0)
      obtain ⟨fuel', rfl⟩ : ∃ f', fuel = f' + q.length := ⟨fuel - q.length, by omega⟩
      have := queueLoop_append f out kids q [] (hf 0) fuel' acc
      rw [List.append_nil, List.nil_append] at this
      rw [this]
      exact ih fuel' (by omega) (q.flatMap kids) (fun k x hx => hf (k + 1) x (by rwa [levels_succ]))
        (fun k => by rw [← levels_succ]; exact hN (k + 1)) _

/-! ### Transforms of the nodes -/

/-- The map that the glTF standard gives a node with scale, rotation by a unit quaternion and translation. -/
def trs (n : Node K) (p : V3 K) : V3 K :=
  let s : V3 K := match n.scale with
    | none => p
    | some v => ⟨v.x * p.x, v.y * p.y, v.z * p.z⟩
  let r : V3 K := match n.rotation with
    | none => s
    | some (x, y, z, w) => Rot.apply ⟨w, x, y, z⟩ s
  match n.translation with
  | none => r
  | some t => r + t

/-- A node without matrix, with a unit quaternion if any. -/
def TrsNode (n : Node K) : Prop :=
  n.matrix = none ∧ ∀ q, n.rotation = some q → q.1 * q.1 + q.2.1 * q.2.1 + q.2.2.1 * q.2.2.1 + q.2.2.2 * q.2.2.2 = 1

/-- An object that acts on points as the map `g`. -/
def Acts (T : T3 K) (g : V3 K → V3 K) : Prop :=
  ∃ (A : M3 K) (b : V3 K), matB T = (some [M4.affine A b] : Option (List (M4 K))) ∧ ∀ p, g p = M3.vecMul p A + b

theorem bmm_single (a b : M4 K) : bmm [a] [b] = some [a * b] := by
  simp [bmm, bcast, blen, pick]

theorem Acts.comp {S T : T3 K} {g h : V3 K → V3 K} (hS : Acts S g) (hT : Acts T h) : Acts (compose S [T]) (h ∘ g) := by
  obtain ⟨A, b, e1, e2⟩ := hS
  obtain ⟨A', b', e3, e4⟩ := hT
  refine ⟨A * A', M3.vecMul b A' + b', ?_, ?_⟩
  · rw [matB_compose, List.map_cons, List.map_nil, List.prod_cons, List.prod_nil, mul_one, e1, e3, B.mul_def]
    show bmm [M4.affine A b] [M4.affine A' b'] = _
    rw [bmm_single, affine_mul]
  · intro p
    simp only [Function.comp_apply, e2, e4]
    ext <;> simp [M3.vecMul, M3.mul_def] <;> ring

theorem acts_base : Acts (.mk .base .f32 [1] [] : T3 K) id := by
  refine ⟨1, 0, ?_, ?_⟩
  · rw [matB_mk, List.map_nil, List.prod_nil, mul_one, affine_one]
  · intro p
    ext <;> simp [M3.vecMul]

theorem acts_identity : Acts (identity : T3 K) id := acts_base

theorem acts_scale (v : V3 K) : Acts (.mk .scale .f32 [scaleMat v] [] : T3 K) (fun p => ⟨v.x * p.x, v.y * p.y, v.z * p.z⟩) := by
  refine ⟨⟨v.x, 0, 0, 0, v.y, 0, 0, 0, v.z⟩, 0, ?_, ?_⟩
  · rw [matB_mk, List.map_nil, List.prod_nil, mul_one]
    rfl
  · intro p
    ext <;> simp [M3.vecMul, mul_comm]

theorem acts_translate (v : V3 K) : Acts (.mk .translate .f32 [translateMat v] [] : T3 K) (fun p => p + v) := by
  refine ⟨1, v, ?_, ?_⟩
  · rw [matB_mk, List.map_nil, List.prod_nil, mul_one]
    rfl
  · intro p
    ext <;> simp [M3.vecMul]

/-- The quaternion with `-w` is the inverse rotation, and the row vector from the left inverts it again. -/
theorem acts_rotate {x y z w : K} (h : x * x + y * y + z * z + w * w = 1) :
    Acts (.mk .rotate .f32 [rotateMat (Rot.quatToMat ⟨-w, x, y, z⟩)] [] : T3 K) (fun p => Rot.apply ⟨w, x, y, z⟩ p) := by
  refine ⟨Rot.quatToMat ⟨-w, x, y, z⟩, 0, ?_, ?_⟩
  · rw [matB_mk, List.map_nil, List.prod_nil, mul_one]
    rfl
  · intro p
    have hn : (⟨w, x, y, z⟩ : Rot.Q K).normSq = 1 := by rw [← h]; simp [Rot.Q.normSq]; ring
    have hq : Rot.quatToMat (⟨-w, x, y, z⟩ : Rot.Q K) = (Rot.quatToMat ⟨w, x, y, z⟩).transpose := by
      rw [← Rot.quatToMat_invert, ← Rot.quatToMat_neg]
      congr 1
      ext <;> simp [Rot.invert]
    simp only
    rw [Rot.apply_unit hn, hq]
    ext <;> simp [M3.mulVec, M3.vecMul, M3.transpose] <;> ring

theorem compose_append (t : T3 K) (a b : List (T3 K)) : compose t (a ++ b) = compose (compose t a) b := by
  obtain ⟨k, d, m, ts⟩ := t
  simp [compose]

theorem acts_base_append (a : List (T3 K)) (t : T3 K) (g h : V3 K → V3 K)
    (h1 : Acts (compose (.mk .base .f32 [1] []) a) g) (h2 : Acts t h) : Acts (compose (.mk .base .f32 [1] []) (a ++ [t])) (h ∘ g) := by
  rw [compose_append]
  exact h1.comp h2

/-- **Nodes with scale, rotation and translation** act as the standard says. -/
theorem trs_node {n : Node K} (h : TrsNode n) : ∃ t, nodeTransform n = .ok t ∧ Acts t (trs n) := by
  obtain ⟨hm, hq⟩ := h
  refine ⟨_, by unfold nodeTransform; rw [hm], ?_⟩
  have h0 : Acts (compose (.mk .base .f32 [1] []) [] : T3 K) id := by
    have : (compose (.mk .base .f32 [1] []) [] : T3 K) = .mk .base .f32 [1] [] := by simp [compose]
    rw [this]
    exact acts_base
  have h1 : Acts (compose (.mk .base .f32 [1] []) (n.scale.map fun v => (.mk .scale .f32 [scaleMat v] [] : T3 K)).toList)
      (fun p => match n.scale with | none => p | some v => ⟨v.x * p.x, v.y * p.y, v.z * p.z⟩) := by
    cases n.scale with
    | none => exact h0
    | some v => exact acts_base_append [] _ _ _ h0 (acts_scale v)
  have h2 : Acts (compose (.mk .base .f32 [1] []) ((n.scale.map fun v => (.mk .scale .f32 [scaleMat v] [] : T3 K)).toList
        ++ (n.rotation.map fun q =>
            (.mk .rotate .f32 [rotateMat (Rot.quatToMat ⟨-q.2.2.2, q.1, q.2.1, q.2.2.1⟩)] [] : T3 K)).toList))
      (fun p => match n.rotation with
        | none => match n.scale with | none => p | some v => ⟨v.x * p.x, v.y * p.y, v.z * p.z⟩
        | some (x, y, z, w) => Rot.apply ⟨w, x, y, z⟩ (match n.scale with | none => p | some v => ⟨v.x * p.x, v.y * p.y, v.z * p.z⟩)) := by
    cases hr : n.rotation with
    | none => simpa using h1
    | some q => exact acts_base_append _ _ _ _ h1 (acts_rotate (hq q hr))
  have h3 : Acts (compose (.mk .base .f32 [1] []) ((n.scale.map fun v => (.mk .scale .f32 [scaleMat v] [] : T3 K)).toList
        ++ (n.rotation.map fun q =>
            (.mk .rotate .f32 [rotateMat (Rot.quatToMat ⟨-q.2.2.2, q.1, q.2.1, q.2.2.1⟩)] [] : T3 K)).toList
        ++ (n.translation.map fun v => (.mk .translate .f32 [translateMat v] [] : T3 K)).toList)) (trs n) := by
    unfold trs
    cases n.translation with
    | none => simpa using h2
    | some v => exact acts_base_append _ _ _ _ h2 (acts_translate v)
  exact h3

/-- The map of the standard for a node with a matrix, stored by columns, whose last row is 0 0 0 1. -/
def gltfMatrix (a : List K) (p : V3 K) : V3 K :=
  ⟨a.getD 0 0 * p.x + a.getD 4 0 * p.y + a.getD 8 0 * p.z + a.getD 12 0,
   a.getD 1 0 * p.x + a.getD 5 0 * p.y + a.getD 9 0 * p.z + a.getD 13 0,
   a.getD 2 0 * p.x + a.getD 6 0 * p.y + a.getD 10 0 * p.z + a.getD 14 0⟩

/-- **Nodes with a matrix** are transposed: the linear part acts as its transpose, and the translation divides. -/
theorem matrix_node {n : Node K} {a : List K} (hm : n.matrix = some a) (h16 : a.length = 16)
    (h3 : a.getD 3 0 = 0) (h7 : a.getD 7 0 = 0) (h11 : a.getD 11 0 = 0) (h15 : a.getD 15 0 = 1) :
    ∃ t M, nodeTransform n = .ok t ∧ getMatrix t = some [M] ∧ ∀ p : V3 K, transformPoint none p M =
      let w := 1 + (p.x * a.getD 12 0 + p.y * a.getD 13 0 + p.z * a.getD 14 0)
      ⟨(a.getD 0 0 * p.x + a.getD 1 0 * p.y + a.getD 2 0 * p.z) / w,
       (a.getD 4 0 * p.x + a.getD 5 0 * p.y + a.getD 6 0 * p.z) / w,
       (a.getD 8 0 * p.x + a.getD 9 0 * p.y + a.getD 10 0 * p.z) / w⟩ := by
  refine ⟨_, _, by unfold nodeTransform; rw [hm]; simp only; rw [if_pos h16], rfl, ?_⟩
  intro p
  set M : M4 K := Matrix.of fun i j => a.getD (i.val + 4 * j.val) 0 with hM
  have hv : ∀ j, Matrix.vecMul (hrow p) M j = p.x * M 0 j + p.y * M 1 j + p.z * M 2 j + M 3 j := by
    intro j
    simp [Matrix.vecMul, dotProduct, Fin.sum_univ_four, hrow]
  have m00 : M 0 0 = a.getD 0 0 := rfl
  have m10 : M 1 0 = a.getD 1 0 := rfl
  have m20 : M 2 0 = a.getD 2 0 := rfl
  have m30 : M 3 0 = 0 := h3
  have m01 : M 0 1 = a.getD 4 0 := rfl
  have m11 : M 1 1 = a.getD 5 0 := rfl
  have m21 : M 2 1 = a.getD 6 0 := rfl
  have m31 : M 3 1 = 0 := h7
  have m02 : M 0 2 = a.getD 8 0 := rfl
  have m12 : M 1 2 = a.getD 9 0 := rfl
  have m22 : M 2 2 = a.getD 10 0 := rfl
  have m32 : M 3 2 = 0 := h11
  have m03 : M 0 3 = a.getD 12 0 := rfl
  have m13 : M 1 3 = a.getD 13 0 := rfl
  have m23 : M 2 3 = a.getD 14 0 := rfl
  have m33 : M 3 3 = 1 := h15
  unfold transformPoint clampDenom
  simp only [hv, m00, m10, m20, m30, m01, m11, m21, m31, m02, m12, m22, m32, m03, m13, m23, m33]
  ext <;> simp only <;> congr 1 <;> ring

/-- With a matrix that has no translation and is symmetric the two agree; a translation is never applied. -/
theorem matrix_node_wrong {n : Node K} {a : List K} (hm : n.matrix = some a) (h16 : a.length = 16)
    (h3 : a.getD 3 0 = 0) (h7 : a.getD 7 0 = 0) (h11 : a.getD 11 0 = 0) (h15 : a.getD 15 0 = 1) :
    ∃ t M, nodeTransform n = .ok t ∧ getMatrix t = some [M] ∧
      ((∀ p : V3 K, transformPoint none p M = gltfMatrix a p) ↔
        a.getD 12 0 = 0 ∧ a.getD 13 0 = 0 ∧ a.getD 14 0 = 0 ∧ a.getD 1 0 = a.getD 4 0 ∧ a.getD 2 0 = a.getD 8 0 ∧ a.getD 6 0 = a.getD 9 0) ∧
      transformPoint none (0 : V3 K) M = 0 := by
  obtain ⟨t, M, e1, e2, e3⟩ := matrix_node hm h16 h3 h7 h11 h15
  refine ⟨t, M, e1, e2, ?_⟩
  unfold gltfMatrix
  generalize a.getD 0 0 = a0 at *
  generalize a.getD 1 0 = a1 at *
  generalize a.getD 2 0 = a2 at *
  generalize a.getD 4 0 = a4 at *
  generalize a.getD 5 0 = a5 at *
  generalize a.getD 6 0 = a6 at *
  generalize a.getD 8 0 = a8 at *
  generalize a.getD 9 0 = a9 at *
  generalize a.getD 10 0 = a10 at *
  generalize a.getD 12 0 = a12 at *
  generalize a.getD 13 0 = a13 at *
  generalize a.getD 14 0 = a14 at *
  refine ⟨⟨?_, ?_⟩, ?_⟩
  · intro h
    have h0 := h 0
    rw [e3] at h0
    simp only [V3.ext_iff, V3.zero_x, V3.zero_y, V3.zero_z] at h0
    norm_num at h0
    obtain ⟨t1, t2, t3⟩ := h0
    rw [eq_comm] at t1 t2 t3
    have hx := h ⟨1, 0, 0⟩
    have hy := h ⟨0, 1, 0⟩
    rw [e3] at hx hy
    simp only [V3.ext_iff, t1, t2, t3] at hx hy
    norm_num at hx hy
    exact ⟨t1, t2, t3, hx.1.symm, hx.2.symm, hy.2.symm⟩
  · rintro ⟨t1, t2, t3, s1, s2, s3⟩ p
    rw [e3]
    simp only [t1, t2, t3, s1, s2, s3]
    ext <;> simp
  · rw [e3]
    ext <;> simp

/-! ### The scene -/

/-- The map from the coordinates of a node to those of the scene. -/
inductive World (d : Doc K) (roots : List Nat) : Nat → Nat → (V3 K → V3 K) → Prop
  | root {n : Nat} {node : Node K} : n ∈ roots → d.nodes[n]? = some node → World d roots 0 n (trs node)
  | child {k n c : Nat} {node cnode : Node K} {g : V3 K → V3 K} : World d roots k n g → d.nodes[n]? = some node →
      c ∈ node.children → d.nodes[c]? = some cnode → World d roots (k + 1) c (g ∘ trs cnode)

/-- The entries that a node adds to the queue. -/
def kidsOf (d : Doc K) (x : T3 K × Nat) : List (T3 K × Nat) :=
  match d.nodes[x.2]? with
  | none => []
  | some n => match nodeTransform n with
    | .error _ => []
    | .ok t => n.children.map fun c => (compose t [x.1], c)

/-- The meshes that a node adds. -/
def outOf (C : Codec K) (d : Doc K) (glb : Option Str) (tex : Bool) (x : T3 K × Nat) : List (Option Str × Mesh K) :=
  match visit C d glb tex x with
  | .error _ => []
  | .ok (o, _) => o

theorem visit_kids {C : Codec K} {d : Doc K} {glb : Option Str} {tex : Bool} {x : T3 K × Nat} {o : List (Option Str × Mesh K)}
    {ks : List (T3 K × Nat)} (h : visit C d glb tex x = .ok (o, ks)) : ks = kidsOf d x ∧ outOf C d glb tex x = o := by
  refine ⟨?_, by unfold outOf; rw [h]⟩
  unfold visit at h
  unfold kidsOf
  cases hn : d.nodes[x.2]? with
  | none => rw [hn] at h; simp at h
  | some n =>
    rw [hn] at h
    simp only at h ⊢
    cases ht : nodeTransform n with
    | error e => rw [ht] at h; simp at h
    | ok t =>
      rw [ht] at h
      simp only at h ⊢
      cases hm : n.mesh with
      | none => rw [hm] at h; simp at h; exact h.2.symm
      | some mi =>
        rw [hm] at h
        simp only at h
        split at h
        · simp at h
        · split at h
          · simp at h
          · simp at h; exact h.2.symm

/-- **Transforms of the scene.** Every entry of depth `k` stands for a node of that depth, and the object with which its
meshes are placed acts as the composition of the maps of the node and all nodes above it. -/
theorem levels_world {d : Doc K} {roots : List Nat} (htrs : ∀ n ∈ d.nodes, TrsNode n) (k : Nat) (x : T3 K × Nat)
    (hx : x ∈ levels (kidsOf d) (roots.map fun n => ((identity : T3 K), n)) k) {node : Node K} (hn : d.nodes[x.2]? = some node) :
    ∃ t g, nodeTransform node = .ok t ∧ World d roots k x.2 g ∧ Acts (compose t [x.1]) g := by
  induction k generalizing x node with
  | zero =>
    obtain ⟨n, hn', rfl⟩ := List.mem_map.1 hx
    obtain ⟨t, e1, e2⟩ := trs_node (htrs node (List.mem_of_getElem? hn))
    exact ⟨t, _, e1, World.root hn' hn, e2.comp acts_identity⟩
  | succ k ih =>
    obtain ⟨y, hy, hxy⟩ := List.mem_flatMap.1 hx
    unfold kidsOf at hxy
    cases hp : d.nodes[y.2]? with
    | none => rw [hp] at hxy; simp at hxy
    | some pn =>
      obtain ⟨t, g, e1, e2, e3⟩ := ih y hy hp
      rw [hp] at hxy
      simp only [e1] at hxy
      obtain ⟨c, hc, rfl⟩ := List.mem_map.1 hxy
      obtain ⟨t', e1', e2'⟩ := trs_node (htrs node (List.mem_of_getElem? hn))
      exact ⟨t', _, e1', World.child e2 hp hc hn, e2'.comp e3⟩

theorem Acts.matrix {T : T3 K} {g : V3 K → V3 K} (h : Acts T g) : ∃ M, getMatrix T = some [M] ∧ ∀ p, transformPoint none p M = g p := by
  obtain ⟨A, b, e1, e2⟩ := h
  exact ⟨_, e1, fun p => by rw [transformPoint_affine, e2]⟩

/-- Vertices of a primitive: the positions of the file, each through the transform. -/
theorem loadPrim_verts {C : Codec K} {d : Doc K} {glb : Option Str} {tex : Bool} {T : T3 K} {g : V3 K → V3 K} (hT : Acts T g)
    {p : Primitive} {m : Mesh K} (h : loadPrim C d glb tex T p = .ok m) :
    p.mode = 4 ∧ ∃ rows ps, accessData C d glb p.position = .ok rows ∧ (rows.map (·.map (num C))).mapM toV3 = some ps ∧
      m.verts = ps.map g ∧ (p.indices = none → 3 * m.faces.length = ps.length) := by
  obtain ⟨M, hM, hg⟩ := hT.matrix
  unfold loadPrim at h
  cases hr : accessData C d glb p.position with
  | error e => rw [hr] at h; simp at h
  | ok rows =>
    rw [hr] at h
    simp only at h
    cases hps : (rows.map (·.map (num C))).mapM toV3 with
    | none =>
      have : place T (rows.map (·.map (num C))) = .error .transform := by unfold place; rw [hps]
      rw [this] at h; simp at h
    | some ps =>
      rw [place_matrix hM hps] at h
      simp only [ne_eq, hg] at h
      by_cases hmode : p.mode = 4
      · rw [if_neg (by simpa using hmode)] at h
        cases hf : faceIndices C d glb p (ps.map g).length with
        | error e => rw [hf] at h; simp at h
        | ok faces =>
          rw [hf] at h
          simp only at h
          split at h
          · simp at h
          · split_ifs at h
            simp only [Except.ok.injEq] at h
            subst h
            refine ⟨hmode, rows, ps, rfl, hps, rfl, ?_⟩
            intro hi
            unfold faceIndices at hf
            rw [hi] at hf
            simp only at hf
            split at hf
            · simp at hf
            · rename_i f hf'
              simp only [Except.ok.injEq] at hf
              subst hf
              have hth : ∀ (l : List Int) (f : List (V3 Int)), threes l = some f → 3 * f.length = l.length := by
                intro l
                induction l using threes.induct with
                | case1 => intro f hf; simp [threes] at hf; subst hf; rfl
                | case2 a b c l ih =>
                  intro f hf
                  simp only [threes, Option.map_eq_some_iff] at hf
                  obtain ⟨q, hq, rfl⟩ := hf
                  have := ih q hq
                  simp only [List.length_cons]
                  omega
                | case3 l h1 h2 =>
                  intro f hf
                  rw [threes] at hf
                  · simp at hf
                  · exact h1
                  · exact h2
              have := hth _ _ hf'
              simpa using this
      · rw [if_pos (by simpa using hmode)] at h
        simp at h

/-- **Loading a scene** whose nodes have scale, rotation and translation: if no node raises and there are none at depth `N`,
the meshes come by depth, each with its vertices in the coordinates of the scene. -/
theorem load_scene (C : Codec K) (d : Doc K) (glb : Option Str) (tex : Bool) {i : Nat} {roots : List Nat} (hs : d.scene = some i)
    (hr : d.scenes[i]? = some roots) (N : Nat)
    (hok : ∀ k, k < N → ∀ x ∈ levels (kidsOf d) (roots.map fun n => ((identity : T3 K), n)) k, ∃ r, visit C d glb tex x = .ok r)
    (hN : levels (kidsOf d) (roots.map fun n => ((identity : T3 K), n)) N = []) (htrs : ∀ n ∈ d.nodes, TrsNode n) :
    ∃ fuel, ∀ fuel', fuel ≤ fuel' → ∃ res, load C d glb tex fuel' = .ok (some res) ∧
      res = (List.range N).flatMap (fun k => (levels (kidsOf d) (roots.map fun n => ((identity : T3 K), n)) k).flatMap (outOf C d glb tex)) ∧
      ∀ nm ∈ res, ∃ k n g node mi mj p rows ps, k < N ∧ World d roots k n g ∧ d.nodes[n]? = some node ∧ node.mesh = some mi ∧
        d.meshes[mi]? = some mj ∧ nm.1 = mj.name ∧ p ∈ mj.primitives ∧ accessData C d glb p.position = .ok rows ∧
        (rows.map (·.map (num C))).mapM toV3 = some ps ∧ nm.2.verts = ps.map g := by
  refine ⟨((List.range N).map fun k => (levels (kidsOf d) (roots.map fun n => ((identity : T3 K), n)) k).length).sum, ?_⟩
  intro fuel' hf
  refine ⟨_, ?_, rfl, ?_⟩
  · unfold load
    simp only [hs, hr]
    rw [queueLoop_levels (visit C d glb tex) (outOf C d glb tex) (kidsOf d) N _ ?_ hN fuel' hf []]
    · rfl
    · intro k hk x hx
      obtain ⟨⟨o, ks⟩, hv⟩ := hok k hk x hx
      obtain ⟨e1, e2⟩ := visit_kids hv
      rw [hv, e1, e2]
  · intro nm hnm
    obtain ⟨k, hk, hnm⟩ := List.mem_flatMap.1 hnm
    obtain ⟨x, hx, hnm⟩ := List.mem_flatMap.1 hnm
    have hk := List.mem_range.1 hk
    obtain ⟨⟨o, ks⟩, hv⟩ := hok k hk x hx
    rw [(visit_kids hv).2] at hnm
    unfold visit at hv
    cases hn : d.nodes[x.2]? with
    | none => rw [hn] at hv; simp at hv
    | some node =>
      obtain ⟨t, g, e1, e2, e3⟩ := levels_world htrs k x hx hn
      rw [hn] at hv
      simp only [e1] at hv
      cases hm : node.mesh with
      | none =>
        rw [hm] at hv
        simp only [Except.ok.injEq, Prod.mk.injEq] at hv
        rw [← hv.1] at hnm
        simp at hnm
      | some mi =>
        rw [hm] at hv
        simp only at hv
        cases hj : d.meshes[mi]? with
        | none => rw [hj] at hv; simp at hv
        | some mj =>
          rw [hj] at hv
          simp only at hv
          cases hp : mj.primitives.mapM (loadPrim C d glb tex (compose t [x.1])) with
          | error e => rw [hp] at hv; simp at hv
          | ok ms =>
            rw [hp] at hv
            simp only [Except.ok.injEq, Prod.mk.injEq] at hv
            rw [← hv.1] at hnm
            obtain ⟨m, hm', rfl⟩ := List.mem_map.1 hnm
            have hex : ∀ (l : List Primitive) (ms : List (Mesh K)), l.mapM (loadPrim C d glb tex (compose t [x.1])) = .ok ms →
                ∀ m ∈ ms, ∃ p ∈ l, loadPrim C d glb tex (compose t [x.1]) p = .ok m := by
              intro l
              induction l with
              | nil => intro ms h m hm; simp [pure, Except.pure] at h; subst h; simp at hm
              | cons p l ih =>
                intro ms h m hm
                rw [List.mapM_cons] at h
                cases h1 : loadPrim C d glb tex (compose t [x.1]) p with
                | error e => rw [h1] at h; simp [bind, Except.bind] at h
                | ok m1 =>
                  cases h2 : l.mapM (loadPrim C d glb tex (compose t [x.1])) with
                  | error e => rw [h1, h2] at h; simp [bind, Except.bind] at h
                  | ok ms1 =>
                    rw [h1, h2] at h
                    simp only [bind, Except.bind, pure, Except.pure, Except.ok.injEq] at h
                    subst h
                    rcases List.mem_cons.1 hm with rfl | hm
                    · exact ⟨p, by simp, h1⟩
                    · obtain ⟨q, hq, hq'⟩ := ih ms1 h2 m hm
                      exact ⟨q, by simp [hq], hq'⟩
            obtain ⟨p, hpl, hp'⟩ := hex _ _ hp m hm'
            obtain ⟨-, rows, ps, a1, a2, a3, -⟩ := loadPrim_verts e3 hp'
            exact ⟨k, x.2, g, node, mi, mj, p, rows, ps, hk, e2, hn, hm, hj, rfl, hpl, a1, a2, a3⟩

/-! ### Examples -/

/-- Colours of 8 bits survive the float32 arithmetic of the loader and the writer. -/
theorem colour_float32 : ∀ k : Fin 256, ⌊Flt.f32 (Flt.f32 ((k.val : ℚ) / 255) * 255)⌋ = (k.val : Int) := by decide +kernel

/-- A codec that knows one mesh. -/
def exC (m : Mesh ℚ) (im : Img ℚ) : Codec ℚ :=
  let base : Codec ℚ :=
    { dumps := fun _ => "{}".toList
      loads := fun _ => .error .json
      b64 := fun _ => .error .value
      png := fun _ => "png".toList
      unpng := fun _ => .ok (true, im.map (·.map (·.map fun x => ((quant x : Nat) : ℚ))))
      enc := fun x => if x = 1 then 1 else if x = 1 / 2 then 2 else if x = 1 / 4 then 3 else if x = 3 / 4 then 4 else 0
      dec := fun n => if n = 1 then 1 else if n = 2 then 1 / 2 else if n = 3 then 1 / 4 else if n = 4 then 3 / 4 else 0
      toInt := fun _ => 0 }
  { base with loads := fun _ => .ok (docOf base m) }

def exVerts : List (V3 ℚ) := [⟨0, 0, 0⟩, ⟨1, 0, 0⟩, ⟨0, 1 / 2, 0⟩, ⟨0, 0, 1⟩]
def exFace : V3 Int := ⟨0, 1, 2⟩
def exPlain : Mesh ℚ := ⟨exVerts, [exFace], none⟩
def exVertex (n : Nat) : Mesh ℚ := ⟨exVerts, List.replicate n exFace, some (.vertex [[1, 0, 0], [0, 1, 0], [0, 0, 1], [1, 1, 1]])⟩
def exIm : Img ℚ := [[[1, 1 / 2, 0]]]
def exUv : Mesh ℚ := ⟨exVerts, [exFace, ⟨0, 2, 3⟩], some (.uv exIm [exFace, ⟨0, 2, 3⟩] [(0, 0), (1, 1 / 4), (1 / 2, 1), (0, 1 / 2)])⟩

theorem exRep (m : Mesh ℚ) (im : Img ℚ) (x : ℚ) (h : x = 0 ∨ x = 1 ∨ x = 1 / 2 ∨ x = 1 / 4 ∨ x = 3 / 4) : Rep (exC m im) x := by
  rcases h with rfl | rfl | rfl | rfl | rfl <;> norm_num [Rep, exC]

theorem exVertsRep (m : Mesh ℚ) (im : Img ℚ) : ∀ v ∈ exVerts, Rep (exC m im) v.x ∧ Rep (exC m im) v.y ∧ Rep (exC m im) v.z := by
  intro v hv
  simp only [exVerts, List.mem_cons, List.not_mem_nil, or_false] at hv
  rcases hv with rfl | rfl | rfl | rfl <;> refine ⟨?_, ?_, ?_⟩ <;> exact exRep m im _ (by norm_num)

/-- One face, no texture. -/
example : ∃ s, save (exC exPlain []) exPlain = .ok (s, exPlain) ∧
    loadMeshes (exC exPlain []) s true 1 = .ok (some [(savedName, exPlain)]) := by
  obtain ⟨⟨s, m'⟩, hs⟩ := (save_ok (exC exPlain []) exPlain).2 (by simp [exPlain, exVerts, exC, announced, texPart, imgPart])
  obtain ⟨h1, h2, h3⟩ := glb_geometry hs rfl (exVertsRep _ _) true 0 (Or.inl rfl)
  have h4 := h2 rfl
  subst h4
  exact ⟨s, hs, h1⟩

/-- Vertex colours: two faces are fine, one face cannot be read back. -/
example : (∃ s, save (exC (exVertex 2) []) (exVertex 2) = .ok (s, exVertex 2) ∧
      loadMeshes (exC (exVertex 2) []) s true 1 = .ok (some [(savedName, exVertex 2)])) ∧
    ∃ s, save (exC (exVertex 1) []) (exVertex 1) = .ok (s, exVertex 1) ∧
      loadMeshes (exC (exVertex 1) []) s true 1 = .error .value := by
  have hf : ∀ m, ∀ r ∈ ([[1, 0, 0], [0, 1, 0], [0, 0, 1], [1, 1, 1]] : List (List ℚ)), ∀ x ∈ r, Rep (exC m []) x := by
    intro m r hr x hx
    have : x = 0 ∨ x = 1 := by
      simp only [List.mem_cons, List.not_mem_nil, or_false] at hr
      rcases hr with rfl | rfl | rfl | rfl <;> simp at hx <;> tauto
    exact exRep m [] x (by tauto)
  constructor
  · obtain ⟨⟨s, m'⟩, hs⟩ := (save_ok (exC (exVertex 2) []) (exVertex 2)).2
      (by simp [exVertex, exVerts, exC, announced, texPart, imgPart])
    have h := ((glb_vertex hs rfl (exVertsRep _ _) 0 rfl (hf _)).2.1 (by decide)).2.2.2 (by decide) (by decide)
    have h2 : m' = exVertex 2 := by
      unfold save at hs
      split_ifs at hs
      simp only at hs
      split_ifs at hs
      simp only [Except.ok.injEq, Prod.mk.injEq] at hs
      rw [← hs.2]; rfl
    subst h2
    exact ⟨s, hs, h⟩
  · obtain ⟨⟨s, m'⟩, hs⟩ := (save_ok (exC (exVertex 1) []) (exVertex 1)).2
      (by simp [exVertex, exVerts, exC, announced, texPart, imgPart])
    have h := ((glb_vertex hs rfl (exVertsRep _ _) 0 rfl (hf _)).2.1 (by decide)).2.1 (by decide)
    have h2 : m' = exVertex 1 := by
      unfold save at hs
      split_ifs at hs
      simp only at hs
      split_ifs at hs
      simp only [Except.ok.injEq, Prod.mk.injEq] at hs
      rw [← hs.2]; rfl
    subst h2
    exact ⟨s, hs, h⟩

/-- A mesh with texture coordinates. -/
example : ∃ s m', save (exC exUv exIm) exUv = .ok (s, m') ∧ m' ≠ exUv ∧
    loadMeshes (exC exUv exIm) s true 1 = .ok (some [(savedName, { exUv with tex := some (.uv [[[1, 127 / 255, 0]]]
      [exFace, ⟨0, 2, 3⟩] [(0, 0), (1, 1 / 4), (1 / 2, 1), (0, 1 / 2)]) })]) := by
  obtain ⟨⟨s, m'⟩, hs⟩ := (save_ok (exC exUv exIm) exUv).2 (by simp [exUv, exVerts, exC, announced, texPart, imgPart])
  have h := glb_uv hs rfl (exVertsRep _ _) 0 rfl (by
    intro r hr
    simp only [List.mem_cons, List.not_mem_nil, or_false] at hr
    rcases hr with rfl | rfl | rfl | rfl <;> refine ⟨?_, ?_⟩ <;> exact exRep _ _ _ (by norm_num)) rfl
  refine ⟨s, m', hs, ?_, ?_⟩
  · rw [h.2]
    intro he
    have := congrArg Mesh.tex he
    simp [exUv] at this
  · rw [h.1, if_pos (by decide)]
    have q1 : backColour (1 : ℚ) = 1 := by decide +kernel
    have q2 : backColour (1 / 2 : ℚ) = 127 / 255 := by decide +kernel
    have q3 : backColour (0 : ℚ) = 0 := by decide +kernel
    simp only [exIm, List.map_cons, List.map_nil, List.take_succ_cons, List.take_zero, q1, q2, q3]
    rfl

/-- A scene of three nodes: the child of a scaled node is moved first. -/
def exScene : Doc ℚ :=
  { scene := some 0, scenes := [[0]]
    nodes := [{ scale := some ⟨2, 2, 2⟩, children := [1, 2] }, { translation := some ⟨1, 0, 0⟩, mesh := some 0 },
      { rotation := some (0, 0, 1, 0), mesh := some 0 }]
    meshes := [{ primitives := [{ position := 0 }] }]
    accessors := [{ bufferView := some 0, componentType := 5126, count := 3, type := .vec3 }]
    bufferViews := [{ buffer := 0, byteLength := 36 }], buffers := [{ byteLength := 36 }] }

/-- Three points: (1, 0, 0), (0, 1, 0), (0, 0, 1). -/
def exBin : Str := [1, 0, 0, 0, 1, 0, 0, 0, 1].flatMap fun n => leBytes 4 n

example : load (exC exPlain []) exScene (some exBin) false 3 =
    .ok (some [(none, ⟨[⟨4, 0, 0⟩, ⟨2, 2, 0⟩, ⟨2, 0, 2⟩], [⟨0, 1, 2⟩], none⟩),
      (none, ⟨[⟨-2, 0, 0⟩, ⟨0, -2, 0⟩, ⟨0, 0, 2⟩], [⟨0, 1, 2⟩], none⟩)]) := by decide +kernel

/-- A node that is its own child. -/
def exCycle : Doc ℚ := { scene := some 0, scenes := [[0]], nodes := [{ children := [0] }] }

theorem cycle_never_ends (C : Codec ℚ) (glb : Option Str) (tex : Bool) (fuel : Nat) : load C exCycle glb tex fuel = .ok none := by
  have hk : ∀ k, ∃ T : T3 ℚ, levels (kidsOf exCycle) [((identity : T3 ℚ), 0)] k = [(T, 0)] := by
    intro k
    induction k with
    | zero => exact ⟨_, rfl⟩
    | succ k ih =>
      obtain ⟨T, hT⟩ := ih
      exact ⟨_, by rw [levels, hT]; rfl⟩
  exact queueLoop_cycle (visit C exCycle glb tex) (fun _ => []) (kidsOf exCycle) [(identity, 0)]
    (fun k x hx => by
      obtain ⟨T, hT⟩ := hk k
      rw [hT] at hx
      simp only [List.mem_singleton] at hx
      subst hx
      rfl)
    (fun k => by
      obtain ⟨T, hT⟩ := hk k
      rw [hT]
      simp) fuel []

/-- Colours of 8 bits are not divided by 255, although the standard says so. -/
theorem colour_not_normalised : ∃ d : Doc ℚ, attr (exC exPlain []) d (some [byte 255, byte 0, byte 128]) (some 0) =
    .ok (some [[255, 0, 128]]) ∧ d.accessors = [{ bufferView := some 0, componentType := 5121, count := 1, type := .vec3 }] :=
  ⟨{ scene := none, scenes := [], accessors := [{ bufferView := some 0, componentType := 5121, count := 1, type := .vec3 }],
     bufferViews := [{ buffer := 0, byteLength := 3 }], buffers := [{ byteLength := 3 }] }, by decide +kernel, rfl⟩

end P3D.Gltf
