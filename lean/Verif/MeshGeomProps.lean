/-
The hypothesis `TransInv` of the history theorems holds for the real geometry; computed normals
under scaling (C06).
-/
import Verif.MeshGeom
import Verif.MeshesProps

namespace P3D.Meshes

open P3D P3D.StructUtils

theorem corner_map {X Y : Type} (g : X → Y) (l : List X) (i : Int) :
    corner (l.map g) i = (corner l i).map g := by
  unfold corner; split <;> simp

theorem corners_map {X Y : Type} (g : X → Y) (l : List X) (f : Face) :
    corners (l.map g) f = (corners l f).map (fun t => (g t.1, g t.2.1, g t.2.2)) := by
  unfold corners
  simp only [corner_map]
  cases corner l f.1 <;> cases corner l f.2.1 <;> cases corner l f.2.2 <;> rfl

/-- Areas, face normals and vertex normals do not change under translation, for all vertices and
faces (even out-of-range ones, where both sides fail). -/
theorem geomOps_transInv {L : Type} (lap : Nat → EdgeView → L) : TransInv (geomOps lap) := by
  intro l f t
  constructor
  · show faceAreasNormals _ f = faceAreasNormals l f
    unfold faceAreasNormals
    congr 1
    funext g
    show Option.map _ (corners (l.map (fun p => p + t)) g) = _
    rw [corners_map, Option.map_map]
    congr 1
    funext ⟨a, b, c⟩
    simp only [Function.comp, add_sub_add_right_eq_sub]
  · show vertexNormals _ f = vertexNormals l f
    have : rawNormals (l.map (fun p => p + t)) f = rawNormals l f := by
      unfold rawNormals
      congr 1
      funext g
      rw [corners_map, Option.map_map]
      congr 1
      funext ⟨a, b, c⟩
      simp only [Function.comp, add_sub_add_right_eq_sub]
    show vertexNormals (l.map (fun p => p + t)) f = _
    unfold vertexNormals
    rw [this, List.length_map]

/-- **C05/C06** for the real geometry: no hypothesis on the operations is left. -/
theorem meshes_real_history {L : Type} (lap : Nat → EdgeView → L)
    (verts : List (List (V3 ℝ))) (faces : List (List Face)) (hlen : faces.length = verts.length)
    (hne : ∃ i, ∃ (h : i < verts.length), verts[i] ≠ [] ∧
      (faces[i]'(by omega)).filter Face.real ≠ [])
    (hist : List (Op (V3 ℝ) ℝ))
    (hacc : Abs.AcceptsAll (geomOps lap) hist
      (Abs.ofLists 0 verts (faces.map (fun f => f.filter Face.real)))) :
    ∃ os s', runAll (geomOps lap) hist (ofList verts faces) = .ok (os, s') ∧
      Abs.ReturnsAll (geomOps lap) hist
        (Abs.ofLists 0 verts (faces.map (fun f => f.filter Face.real))) os :=
  meshes_list_history (geomOps_transInv lap) verts faces hlen hne hist hacc

/-! Scaling -/

theorem indexAdd_smul (idx : List Int) (n : List (V3 ℝ)) (c : ℝ) (v : Nat) :
    indexAdd idx (n.map (fun x => c • x)) v = c • indexAdd idx n v := by
  unfold indexAdd
  induction idx generalizing n with
  | nil => simp
  | cons i idx ih =>
    cases n with
    | nil => simp
    | cons x n =>
      simp only [List.map_cons, List.zipWith_cons_cons, List.sum_cons, ih, smul_add]
      congr 1
      split <;> simp

theorem normalSum_smul (faces : List Face) (n : List (V3 ℝ)) (c : ℝ) (v : Nat) :
    normalSum faces (n.map (fun x => c • x)) v = c • normalSum faces n v := by
  simp only [normalSum, indexAdd_smul, smul_add]

theorem mapM_option_map {X Y Z : Type} (f : X → Option Y) (g : Y → Z) (l : List X) :
    l.mapM (fun x => (f x).map g) = (l.mapM f).map (fun r => r.map g) := by
  induction l with
  | nil => rfl
  | cons x l ih =>
    rw [List.mapM_cons, List.mapM_cons, ih]
    cases f x with
    | none => rfl
    | some y => cases l.mapM f <;> rfl

theorem rawNormals_smul (l : List (V3 ℝ)) (faces : List Face) (c : ℝ) :
    rawNormals (l.map (fun p => c • p)) faces
      = (rawNormals l faces).map (fun n => n.map (fun x => (c * c) • x)) := by
  unfold rawNormals
  rw [← mapM_option_map]
  congr 1
  funext g
  rw [corners_map, Option.map_map, Option.map_map]
  congr 1
  funext ⟨a, b, d⟩
  simp only [Function.comp, ← smul_sub, V3.cross_smul]

theorem norm3_smul (c : ℝ) (v : V3 ℝ) : norm3 (c • v) = |c| * norm3 v := by
  rw [norm3, V3.normSq_smul, Real.sqrt_mul (sq_nonneg c), Real.sqrt_sq_eq_abs, norm3]

theorem normalize_smul {eps k : ℝ} (hk : 0 < k) (v : V3 ℝ)
    (h : v = 0 ∨ (eps ≤ norm3 v ∧ eps ≤ k * norm3 v ∧ 0 < eps)) :
    normalize eps (k • v) = normalize eps v := by
  rcases h with rfl | ⟨h1, h2, h3⟩
  · simp
  · unfold normalize
    rw [norm3_smul, abs_of_pos hk, max_eq_left h1, max_eq_left h2, smul_smul]
    congr 1
    have : norm3 v ≠ 0 := by intro hc; rw [hc] at h1; linarith
    field_simp

/-- **C06, normals.** Scaling all vertices by one factor `c ≠ 0` keeps the computed vertex normals
(also for negative `c`), as long as neither the old nor the new area-weighted sums at a vertex fall
under the `1e-6` guard of `normalize`. -/
theorem vertexNormals_scale (l : List (V3 ℝ)) (faces : List Face) (c : ℝ) (hc : c ≠ 0)
    (hbig : ∀ n, rawNormals l faces = some n → ∀ v, normalSum faces n v = 0 ∨
      (1 / 1000000 ≤ norm3 (normalSum faces n v) ∧
        1 / 1000000 ≤ c * c * norm3 (normalSum faces n v))) :
    vertexNormals (l.map (fun p => c • p)) faces = vertexNormals l faces := by
  unfold vertexNormals
  rw [rawNormals_smul]
  cases hr : rawNormals l faces with
  | none => rfl
  | some n =>
    simp only [Option.map_some, List.length_map]
    apply List.map_congr_left
    intro v _
    rw [normalSum_smul]
    apply normalize_smul (mul_self_pos.mpr hc)
    rcases hbig n hr v with h | ⟨h1, h2⟩
    · exact Or.inl h
    · exact Or.inr ⟨h1, h2, by norm_num⟩

/-- The unit triangle used in the witnesses below. -/
def tri : List (V3 ℝ) := [⟨0, 0, 0⟩, ⟨1, 0, 0⟩, ⟨0, 1, 0⟩]

theorem tri_normals : vertexNormals tri [(0, 1, 2)] = [⟨0, 0, 1⟩, ⟨0, 0, 1⟩, ⟨0, 0, 1⟩] := by
  have h0 : rawNormals tri [(0, 1, 2)] = some [⟨0, 0, 1⟩] := by
    simp [rawNormals, corners, corner, tri, V3.cross]
  have hn : normalize (1 / 1000000) (⟨0, 0, 1⟩ : V3 ℝ) = ⟨0, 0, 1⟩ := by
    have : norm3 ⟨0, 0, 1⟩ = 1 := by simp [norm3, V3.normSq, V3.dot]
    rw [normalize, this, max_eq_left (by norm_num)]
    ext <;> simp
  have hs : ∀ v, v < 3 → normalSum [(0, 1, 2)] [(⟨0, 0, 1⟩ : V3 ℝ)] v = ⟨0, 0, 1⟩ := by
    intro v hv
    have : v = 0 ∨ v = 1 ∨ v = 2 := by omega
    rcases this with rfl | rfl | rfl <;> ext <;> simp [normalSum, indexAdd]
  rw [vertexNormals, h0]
  simp [tri, List.range_succ, hs, -one_div, hn]

theorem tri_zero_normals :
    vertexNormals (tri.map (fun p => (0 : ℝ) • p)) [(0, 1, 2)] = [0, 0, 0] := by
  have h0 : rawNormals (tri.map (fun p => (0 : ℝ) • p)) [(0, 1, 2)] = some [0] := by
    simp [rawNormals, corners, corner, tri, V3.cross]; rfl
  have hs : ∀ v, v < 3 → normalSum [(0, 1, 2)] [(0 : V3 ℝ)] v = 0 := by
    intro v hv
    simp [normalSum, indexAdd]
  rw [vertexNormals, h0]
  simp [tri, List.range_succ, hs, normalize]

/-- The hypothesis `hbig` of `vertexNormals_scale` is met by the unit triangle and `c = -2`. -/
example : vertexNormals (tri.map (fun p => (-2 : ℝ) • p)) [(0, 1, 2)]
    = vertexNormals tri [(0, 1, 2)] := by
  apply vertexNormals_scale _ _ _ (by norm_num)
  intro n hn v
  have h0 : rawNormals tri [(0, 1, 2)] = some [⟨0, 0, 1⟩] := by
    simp [rawNormals, corners, corner, tri, V3.cross]
  rw [h0] at hn
  cases hn
  by_cases hv : v < 3
  · right
    have hs : normalSum [(0, 1, 2)] [(⟨0, 0, 1⟩ : V3 ℝ)] v = ⟨0, 0, 1⟩ := by
      have : v = 0 ∨ v = 1 ∨ v = 2 := by omega
      rcases this with rfl | rfl | rfl <;> ext <;> simp [normalSum, indexAdd]
    have h1 : norm3 ⟨0, 0, 1⟩ = 1 := by simp [norm3, V3.normSq, V3.dot]
    rw [hs, h1]; norm_num
  · left
    have h1 : ¬ ((0 : Int) = v) := by omega
    have h2 : ¬ ((1 : Int) = v) := by omega
    have h3 : ¬ ((2 : Int) = v) := by omega
    simp [normalSum, indexAdd, h1, h2, h3]

/-- **C06 is false for vertex normals after `scale_verts_(0)`**: the result of
`verts_normals_packed()` depends on whether it had been called before the scaling. -/
theorem scaleVerts_normals_stale :
    ∃ s1 s2 : State (V3 ℝ) _ EdgeView Unit,
      runAll (geomOps fun _ _ => ()) [.vnormals, .scale [0], .vnormals]
        (ofList [tri] [[(0, 1, 2)]]) =
        .ok ([.normals (some [⟨0, 0, 1⟩, ⟨0, 0, 1⟩, ⟨0, 0, 1⟩]), .unit,
              .normals (some [⟨0, 0, 1⟩, ⟨0, 0, 1⟩, ⟨0, 0, 1⟩])], s1) ∧
      runAll (geomOps fun _ _ => ()) [.scale [0], .vnormals]
        (ofList [tri] [[(0, 1, 2)]]) =
        .ok ([.unit, .normals (some [0, 0, 0])], s2) := by
  rw [← tri_normals, ← tri_zero_normals]
  exact ⟨_, _, rfl, rfl⟩

end P3D.Meshes
