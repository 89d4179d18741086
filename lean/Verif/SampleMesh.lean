/-
Model of `ops/sample_points_from_meshes.py` `sample_points_from_meshes`: the packed computation, for every batch of meshes.

`areas_padded.multinomial` and `torch.rand` are inputs: a function that takes, for each row of weights, indices of positive weight, and
the random numbers.  Numbers are real.  `torch.isfinite` has no meaning for real numbers.  The textures are those of `pix_to_face` and the
barycentric coordinates (`Meshes.sample_textures`, modelled elsewhere).
-/
import Verif.SampleUniform
import Verif.MeshGeomProps
import Verif.PackedPaddedProps
import Mathlib.Data.List.GetD

set_option linter.unusedSectionVars false
namespace P3D.SampleMesh

open P3D P3D.PackedPadded P3D.StructUtils

inductive Err | value | index | runtime
  deriving DecidableEq, Repr

abbrev Tri := V3 ℝ × V3 ℝ × V3 ℝ

/-- One mesh of the batch. -/
structure Mesh where
  verts : List (V3 ℝ)
  faces : List (Nat × Nat × Nat)

/-- structures/meshes.py `valid`: vertices and faces. -/
def Mesh.valid (m : Mesh) : Bool := !m.verts.isEmpty && !m.faces.isEmpty

/-- `verts_packed()`. -/
def vertsP (ms : List Mesh) : List (V3 ℝ) := ms.flatMap (·.verts)

/-- `faces_packed()`, with `off` vertices before. -/
def facesP (off : Nat) : List Mesh → List (Nat × Nat × Nat)
  | [] => []
  | m :: ms => (m.faces.map fun f => (off + f.1, off + f.2.1, off + f.2.2)) ++ facesP (off + m.verts.length) ms

/-- `mesh_to_faces_packed_first_idx()`, with `off` faces before. -/
def firstP (off : Nat) : List Mesh → List Nat
  | [] => []
  | m :: ms => off :: firstP (off + m.faces.length) ms

/-- `x[mask]`. -/
def sel {X : Type} : List Bool → List X → List X
  | true :: b, x :: l => x :: sel b l
  | false :: b, _ :: l => sel b l
  | _, _ => []

/-- `samples[mask] = rows` on a tensor of zeros. -/
def place {X : Type} (zero : X) : List Bool → List X → List X
  | [], _ => []
  | true :: b, x :: l => x :: place zero b l
  | true :: b, [] => zero :: place zero b []
  | false :: b, l => zero :: place zero b l

/-- The corners of a face. -/
def fetch (l : List (V3 ℝ)) (f : Nat × Nat × Nat) : Option Tri :=
  match l[f.1]?, l[f.2.1]?, l[f.2.2]? with
  | some a, some b, some c => some (a, b, c)
  | _, _, _ => none

/-- csrc/face_areas_normals/face_areas_normals_cpu.cpp:40-55. -/
noncomputable def areaOf (t : Tri) : ℝ := Meshes.norm3 (V3.cross (t.2.1 - t.1) (t.2.2 - t.1)) / 2

/-- sample_points_from_meshes.py:117-118. -/
noncomputable def point (w : ℝ × ℝ × ℝ) (t : Tri) : V3 ℝ := w.1 • t.1 + w.2.1 • t.2.1 + w.2.2 • t.2.2

/-- sample_points_from_meshes.py:125-128, with `sys.float_info.epsilon`. -/
noncomputable def normalOf (t : Tri) : V3 ℝ := Meshes.normalize (1 / 2 ^ 52) (V3.cross (t.2.1 - t.1) (t.2.2 - t.2.1))

/-- `torch.multinomial(weights, S, replacement=True)` on a table given as a flat buffer; `draw row i` is what the generator gives. -/
noncomputable def multinomial (draw : List ℝ → Nat → Nat → Nat) (rows width S : Nat) (buf : List ℝ) : Except Err (List (List Nat)) :=
  if S = 0 then .error .runtime
  else if ∃ r < rows, ((buf.drop (r * width)).take width).sum ≤ 0 then .error .runtime
  else .ok ((List.range rows).map fun r => (List.range S).map fun s => draw ((buf.drop (r * width)).take width) r s)

/-- What is computed before the output: triangles, valid meshes and the packed index of the face of each sample;
sample_points_from_meshes.py:67-102. -/
noncomputable def choose (draw : List ℝ → Nat → Nat → Nat) (ms : List Mesh) (S : Nat) : Except Err (List Tri × List (List Nat)) :=
  if ms.all (fun m => !m.valid) then .error .value
  else
    match (facesP 0 ms).mapM (fetch (vertsP ms)) with
    | none => .error .index
    | some tris =>
      let valid := ms.map Mesh.valid
      let first := sel valid (firstP 0 ms)
      let maxF := (ms.map fun m => m.faces.length).foldl max 0
      match packedToPadded 0 (tris.map areaOf) first maxF with
      | none => .error .runtime
      | some buf => do
        let d ← multinomial draw first.length maxF S buf
        .ok (tris, List.zipWith (fun (row : List Nat) o => row.map (· + o)) d first)

/-- `face_verts[sample_face_idxs]`. -/
def pick (tris : List Tri) (k : Nat) : Tri := tris.getD k (0, 0, 0)

/-- sample_points_from_meshes.py:22-153: samples and normals.  `uv r s` are the random numbers of sample `s` of the `r`-th non empty mesh. -/
noncomputable def samplePoints (draw : List ℝ → Nat → Nat → Nat) (uv : Nat → Nat → ℝ × ℝ) (ms : List Mesh) (S : Nat) :
    Except Err (List (List (V3 ℝ)) × List (List (V3 ℝ))) := do
  let r ← choose draw ms S
  let valid := ms.map Mesh.valid
  let pts := r.2.mapIdx fun i row => row.mapIdx fun s k => point (bary (uv i s).1 (uv i s).2) (pick r.1 k)
  let nrm := r.2.map fun row => row.map fun k => normalOf (pick r.1 k)
  .ok (place (List.replicate S 0) valid pts, place (List.replicate S 0) valid nrm)

/-- sample_points_from_meshes.py:131-134: `pix_to_face` for the textures, one row per mesh. -/
noncomputable def pixToFace (draw : List ℝ → Nat → Nat → Nat) (ms : List Mesh) (S : Nat) : Except Err (List (List Nat)) := do
  let r ← choose draw ms S
  if r.2.length * S = ms.length * S then .ok r.2 else .error .runtime

/-! ### Specification -/

/-- `multinomial` never takes an index of weight zero. -/
def Multinomial (draw : List ℝ → Nat → Nat → Nat) : Prop :=
  ∀ w : List ℝ, (∀ x ∈ w, 0 ≤ x) → 0 < w.sum → ∀ r s, 0 < w.getD (draw w r s) 0

/-- There is such a function. -/
theorem multinomial_exists : ∃ draw, Multinomial draw := by
  classical
  have h : ∀ w : List ℝ, (∀ x ∈ w, 0 ≤ x) → 0 < w.sum → ∃ k, 0 < w.getD k 0 := by
    intro w hw0 hs
    by_contra hc
    push Not at hc
    have : w.sum ≤ 0 := by
      have hle : ∀ x ∈ w, x ≤ 0 := fun x hx => by
        obtain ⟨i, hi, rfl⟩ := List.getElem_of_mem hx
        have := hc i
        rwa [List.getD_eq_getElem w 0 hi] at this
      clear hs hc hw0
      induction w with
      | nil => simp
      | cons x w ih =>
        rw [List.sum_cons]
        have h1 := hle x List.mem_cons_self
        have h2 := ih fun y hy => hle y (List.mem_cons_of_mem _ hy)
        linarith
    linarith
  refine ⟨fun w _ _ => if hw : (∀ x ∈ w, 0 ≤ x) ∧ 0 < w.sum then (h w hw.1 hw.2).choose else 0, ?_⟩
  intro w h1 h2 r s
  simp only [dif_pos (And.intro h1 h2)]
  exact (h w h1 h2).choose_spec

/-- The triangles of a mesh. -/
noncomputable def trisOf (m : Mesh) : List Tri := m.faces.map fun f => (m.verts.getD f.1 0, m.verts.getD f.2.1 0, m.verts.getD f.2.2 0)

/-- All corners of a face are vertices of the mesh. -/
def Mesh.Ok (m : Mesh) : Prop := ∀ f ∈ m.faces, f.1 < m.verts.length ∧ f.2.1 < m.verts.length ∧ f.2.2 < m.verts.length

/-! ### Packed lists -/

theorem fetch_packed (pre post : List (V3 ℝ)) {m : Mesh} (f : Nat × Nat × Nat)
    (h : f.1 < m.verts.length ∧ f.2.1 < m.verts.length ∧ f.2.2 < m.verts.length) :
    fetch (pre ++ (m.verts ++ post)) (pre.length + f.1, pre.length + f.2.1, pre.length + f.2.2) =
      some (m.verts.getD f.1 0, m.verts.getD f.2.1 0, m.verts.getD f.2.2 0) := by
  have key : ∀ i < m.verts.length, (pre ++ (m.verts ++ post))[pre.length + i]? = some (m.verts.getD i 0) := by
    intro i hi
    rw [List.getElem?_append_right (by omega), Nat.add_sub_cancel_left, List.getElem?_append_left hi, List.getElem?_eq_getElem hi,
      List.getD_eq_getElem _ _ hi]
  simp only [fetch, key _ h.1, key _ h.2.1, key _ h.2.2]

theorem mapM_append_some {X Y : Type} {f : X → Option Y} {l1 l2 : List X} {r1 r2 : List Y} (h1 : l1.mapM f = some r1) (h2 : l2.mapM f = some r2) :
    (l1 ++ l2).mapM f = some (r1 ++ r2) := by
  rw [List.mapM_append, h1, h2]; rfl

theorem mapM_map_some {X Y Z : Type} {f : Y → Option Z} {g : X → Y} {h : X → Z} {l : List X} (e : ∀ x ∈ l, f (g x) = some (h x)) :
    (l.map g).mapM f = some (l.map h) := by
  induction l with
  | nil => rfl
  | cons x l ih =>
    rw [List.map_cons, List.mapM_cons, e x List.mem_cons_self, ih fun y hy => e y (List.mem_cons_of_mem _ hy)]
    rfl

theorem tris_packed (ms : List Mesh) (hok : ∀ m ∈ ms, m.Ok) : (facesP 0 ms).mapM (fetch (vertsP ms)) = some (ms.map trisOf).flatten := by
  have gen : ∀ (ms : List Mesh) (pre : List (V3 ℝ)), (∀ m ∈ ms, m.Ok) →
      (facesP pre.length ms).mapM (fetch (pre ++ vertsP ms)) = some (ms.map trisOf).flatten := by
    intro ms
    induction ms with
    | nil => intro pre _; rfl
    | cons m ms ih =>
      intro pre h
      have h1 := ih (pre ++ m.verts) fun m' hm' => h m' (List.mem_cons_of_mem _ hm')
      rw [List.length_append] at h1
      have e : vertsP (m :: ms) = m.verts ++ vertsP ms := rfl
      rw [List.append_assoc] at h1
      rw [facesP, e]
      refine mapM_append_some (mapM_map_some fun f hf => fetch_packed pre (vertsP ms) f (h m List.mem_cons_self f hf)) h1
  exact gen ms [] hok

theorem firstIdxs_cons {X : Type} (a : List X) (x : List (List X)) : firstIdxs (a :: x) = 0 :: (firstIdxs x).map (a.length + ·) := by
  unfold firstIdxs
  rw [List.length_cons, List.range_succ_eq_map, List.map_cons, List.map_map, List.map_map]
  simp only [offset, List.take_zero, List.map_nil, List.sum_nil]
  rfl

/-- The valid meshes. -/
def good (ms : List Mesh) : List Mesh := ms.filter Mesh.valid

theorem not_valid {m : Mesh} (hok : m.Ok) (h : m.valid = false) : m.faces = [] := by
  cases hf : m.faces with
  | nil => rfl
  | cons f l =>
    have := hok f (by rw [hf]; exact List.mem_cons_self)
    cases hv : m.verts with
    | nil => rw [hv] at this; simp at this
    | cons v w => simp [Mesh.valid, hf, hv] at h

theorem first_good (ms : List Mesh) (hok : ∀ m ∈ ms, m.Ok) : ∀ off, sel (ms.map Mesh.valid) (firstP off ms) =
    (firstIdxs ((good ms).map trisOf)).map (off + ·) := by
  induction ms with
  | nil => intro off; rfl
  | cons m ms ih =>
    intro off
    have ih' := ih (fun m' hm' => hok m' (List.mem_cons_of_mem _ hm'))
    cases hv : m.valid with
    | true =>
      simp only [List.map_cons, hv, firstP, sel, good, List.filter_cons, if_true]
      rw [ih', firstIdxs_cons]
      simp only [List.map_cons, List.map_map, add_zero, good]
      congr 1
      refine List.map_congr_left fun i _ => ?_
      simp [trisOf]; omega
    | false =>
      have e := not_valid (hok m List.mem_cons_self) hv
      have := ih' off
      simp only [List.map_cons, hv, firstP, sel, good, List.filter_cons, e, List.length_nil, add_zero]
      simpa [good] using this

theorem flatten_good (ms : List Mesh) (hok : ∀ m ∈ ms, m.Ok) : (ms.map trisOf).flatten = ((good ms).map trisOf).flatten := by
  induction ms with
  | nil => rfl
  | cons m ms ih =>
    have ih' := ih (fun m' hm' => hok m' (List.mem_cons_of_mem _ hm'))
    cases hv : m.valid with
    | true => simp only [List.map_cons, good, List.filter_cons, hv, if_true, List.flatten_cons] at ih' ⊢; rw [ih']
    | false =>
      have e := not_valid (hok m List.mem_cons_self) hv
      simp only [List.map_cons, good, List.filter_cons, hv, List.flatten_cons] at ih' ⊢
      rw [ih']
      simp [trisOf, e]

theorem foldl_max_le (l : List Nat) : ∀ a, a ≤ l.foldl max a ∧ ∀ x ∈ l, x ≤ l.foldl max a := by
  induction l with
  | nil => intro a; simp
  | cons y l ih =>
    intro a
    obtain ⟨h1, h2⟩ := ih (max a y)
    refine ⟨(le_max_left _ _).trans h1, fun x hx => ?_⟩
    rcases List.mem_cons.mp hx with rfl | hx
    · exact (le_max_right _ _).trans h1
    · exact h2 x hx

theorem areaOf_nonneg (t : Tri) : 0 ≤ areaOf t := div_nonneg (Real.sqrt_nonneg _) (by norm_num)

/-- Total area of a mesh. -/
noncomputable def total (m : Mesh) : ℝ := ((trisOf m).map areaOf).sum

theorem uniform_row {X : Type} {rows : List (List X)} {S : Nat} (h : ∀ r ∈ rows, r.length = S) : ∀ {i : Nat} (hi : i < rows.length),
    (rows.flatten.drop (i * S)).take S = rows[i] := by
  induction rows with
  | nil => intro i hi; simp at hi
  | cons r rows ih =>
    intro i hi
    have hr := h r List.mem_cons_self
    cases i with
    | zero => simp [List.flatten_cons, ← hr]
    | succ i =>
      have := ih (fun r' hr' => h r' (List.mem_cons_of_mem _ hr')) (i := i) (by simpa using hi)
      rw [List.flatten_cons, show (i + 1) * S = r.length + i * S by rw [hr]; ring, ← List.drop_drop, List.drop_left]
      simpa using this

/-- The weights of a mesh with zeros behind. -/
noncomputable def weights (w : Nat) (m : Mesh) : List ℝ := expectedRow w 0 ((trisOf m).map areaOf)

theorem weights_sum (w : Nat) (m : Mesh) : (weights w m).sum = total m := by
  simp [weights, expectedRow, total]

theorem weights_nonneg (w : Nat) (m : Mesh) : ∀ x ∈ weights w m, 0 ≤ x := by
  intro x hx
  simp only [weights, expectedRow, List.mem_append, List.mem_map, List.mem_replicate] at hx
  rcases hx with ⟨t, _, rfl⟩ | ⟨_, rfl⟩
  · exact areaOf_nonneg t
  · exact le_rfl

/-- The largest number of faces. -/
def maxFaces (ms : List Mesh) : Nat := (ms.map fun m => m.faces.length).foldl max 0

theorem choose_eq (draw : List ℝ → Nat → Nat → Nat) {ms : List Mesh} {S : Nat} (hok : ∀ m ∈ ms, m.Ok) (hne : good ms ≠ []) (hS : S ≠ 0)
    (hpos : ∀ m ∈ good ms, 0 < total m) :
    choose draw ms S = .ok (((good ms).map trisOf).flatten,
      (good ms).mapIdx fun r m => (List.range S).map fun s => draw (weights (maxFaces ms) m) r s + offset ((good ms).map trisOf) r) := by
  have hall : ¬ (ms.all (fun m => !m.valid) = true) := by
    intro h
    refine hne (List.filter_eq_nil_iff.mpr fun m hm => ?_)
    simpa using List.all_eq_true.mp h m hm
  set x := (good ms).map fun m => (trisOf m).map areaOf with hx
  have e1 : ((ms.map trisOf).flatten).map areaOf = x.flatten := by
    rw [flatten_good ms hok, List.map_flatten, hx, List.map_map]; rfl
  have e2 : sel (ms.map Mesh.valid) (firstP 0 ms) = firstIdxs x := by
    rw [first_good ms hok]
    have : (firstIdxs ((good ms).map trisOf)).map (0 + ·) = firstIdxs ((good ms).map trisOf) := by
      rw [List.map_congr_left (g := id) (fun i _ => Nat.zero_add i), List.map_id]
    rw [this]
    unfold firstIdxs
    rw [hx, List.length_map, List.length_map]
    refine List.map_congr_left fun i _ => ?_
    simp only [offset, ← List.map_take, List.map_map]
    congr 1
    exact List.map_congr_left fun m _ => by simp
  have hw : ∀ y ∈ x, y.length ≤ maxFaces ms := by
    intro y hy
    rw [hx, List.mem_map] at hy
    obtain ⟨m, hm, rfl⟩ := hy
    have : m ∈ ms := (List.mem_filter.mp hm).1
    rw [List.length_map, trisOf, List.length_map]
    exact (foldl_max_le _ 0).2 _ (List.mem_map_of_mem this)
  have e3 : packedToPadded 0 x.flatten (firstIdxs x) (maxFaces ms) = some (x.map (expectedRow (maxFaces ms) 0)).flatten :=
    packedToPadded_correct 0 x (maxFaces ms) hw _ (List.Perm.refl _)
  have hl : (firstIdxs x).length = (good ms).length := by simp [firstIdxs, hx]
  have hrow : ∀ r (hr : r < (good ms).length), ((x.map (expectedRow (maxFaces ms) 0)).flatten.drop (r * maxFaces ms)).take (maxFaces ms) =
      weights (maxFaces ms) (good ms)[r] := by
    intro r hr
    have := uniform_row (rows := x.map (expectedRow (maxFaces ms) 0)) (S := maxFaces ms) (fun y hy => by
      obtain ⟨z, hz, rfl⟩ := List.mem_map.mp hy
      exact expectedRow_length _ _ _ (hw z hz)) (i := r) (by simpa [hx] using hr)
    rw [this]
    simp [hx, weights]
  unfold choose
  rw [if_neg hall, tris_packed ms hok]
  simp only [e1, e2]
  rw [show (ms.map fun m => m.faces.length).foldl max 0 = maxFaces ms from rfl, e3]
  simp only [multinomial, if_neg hS]
  rw [if_neg]
  · simp only [hl, bind, Except.bind]
    congr 1
    refine Prod.ext (flatten_good ms hok) ?_
    apply List.ext_getElem
    · simp [hl]
    · intro r h1 h2
      have hr : r < (good ms).length := by simpa using h2
      simp only [List.getElem_zipWith, List.getElem_map, List.getElem_range, List.getElem_mapIdx, List.map_map]
      refine List.map_congr_left fun s _ => ?_
      simp only [Function.comp_apply]
      rw [hrow r hr]
      congr 1
      simp only [firstIdxs, List.getElem_map, List.getElem_range, hx]
      simp only [offset, ← List.map_take, List.map_map]
      congr 1
      exact List.map_congr_left fun m _ => by simp
  · rintro ⟨r, hr, hs⟩
    rw [hl] at hr
    rw [hrow r hr, weights_sum] at hs
    exact absurd (hpos _ (List.getElem_mem hr)) (not_lt.mpr hs)

/-! ### The samples -/

theorem place_get {X : Type} (zero : X) {ms : List Mesh} : ∀ {rows : List X}, rows.length = (good ms).length → ∀ {i : Nat} (hi : i < ms.length),
    (place zero (ms.map Mesh.valid) rows)[i]? = if ms[i].valid then rows[(good (ms.take i)).length]? else some zero := by
  induction ms with
  | nil => intro rows _ i hi; simp at hi
  | cons m ms ih =>
    intro rows hl i hi
    cases hv : m.valid with
    | true =>
      cases rows with
      | nil => simp [good, hv] at hl
      | cons x rows =>
        have hl' : rows.length = (good ms).length := by simpa [good, hv] using hl
        cases i with
        | zero => simp [place, hv, good]
        | succ i =>
          have := ih hl' (i := i) (by simpa using hi)
          simp only [List.map_cons, hv, place, List.getElem?_cons_succ, List.getElem_cons_succ, List.take_succ_cons, good, List.filter_cons,
            if_true, List.length_cons]
          rw [this]; rfl
    | false =>
      have hl' : rows.length = (good ms).length := by simpa [good, hv] using hl
      cases i with
      | zero => simp [place, hv]
      | succ i =>
        have := ih hl' (i := i) (by simpa using hi)
        simp only [List.map_cons, hv, place, List.getElem?_cons_succ, List.getElem_cons_succ, List.take_succ_cons, good, List.filter_cons]
        rw [this]; rfl

theorem place_length {X : Type} (zero : X) : ∀ (b : List Bool) (rows : List X), (place zero b rows).length = b.length
  | [], _ => rfl
  | true :: b, [] => by simp [place, place_length zero b]
  | true :: b, _ :: l => by simp [place, place_length zero b]
  | false :: b, l => by simp [place, place_length zero b]

theorem good_take {ms : List Mesh} : ∀ {i : Nat} (hi : i < ms.length), ms[i].valid = true → (good ms)[(good (ms.take i)).length]? = some ms[i] := by
  induction ms with
  | nil => intro i hi; simp at hi
  | cons m ms ih =>
    intro i hi hv
    cases i with
    | zero =>
      have hv' : m.valid = true := hv
      simp [good, hv']
    | succ i =>
      have := ih (i := i) (by simpa using hi) (by simpa using hv)
      cases hm : m.valid with
      | true => simpa [good, hm] using this
      | false => simpa [good, hm] using this

theorem flatten_get {X : Type} {x : List (List X)} : ∀ {b k : Nat} (hb : b < x.length) (hk : k < x[b].length),
    x.flatten[offset x b + k]? = some x[b][k] := by
  induction x with
  | nil => intro b k hb; simp at hb
  | cons a x ih =>
    intro b k hb hk
    cases b with
    | zero =>
      have hk' : k < a.length := hk
      simp only [offset, List.take_zero, List.map_nil, List.sum_nil, Nat.zero_add, List.flatten_cons]
      rw [List.getElem?_append_left hk', List.getElem?_eq_getElem hk']
      rfl
    | succ b =>
      have := ih (b := b) (k := k) (by simpa using hb) (by simpa using hk)
      have e : offset (a :: x) (b + 1) = a.length + offset x b := by simp [offset]
      rw [e, List.flatten_cons, Nat.add_assoc, List.getElem?_append_right (by omega), Nat.add_sub_cancel_left, this]
      rfl

/-- **What is returned.**  For every batch of meshes (empty ones among them), all random numbers and every `multinomial` that respects the
weights: row `i` is zero if mesh `i` is empty; otherwise its points lie on faces of mesh `i` of positive area, at the barycentric
coordinates of the random numbers, with the normals of these faces. -/
theorem samplePoints_spec {draw : List ℝ → Nat → Nat → Nat} (hdraw : Multinomial draw) (uv : Nat → Nat → ℝ × ℝ) {ms : List Mesh} {S : Nat}
    (hok : ∀ m ∈ ms, m.Ok) (hne : ∃ m ∈ ms, m.valid = true) (hS : 0 < S) (hpos : ∀ m ∈ ms, m.valid = true → 0 < total m) :
    ∃ out, samplePoints draw uv ms S = .ok out ∧ out.1.length = ms.length ∧ out.2.length = ms.length ∧
      ∀ i (hi : i < ms.length),
        (ms[i].valid = false → out.1[i]? = some (List.replicate S 0) ∧ out.2[i]? = some (List.replicate S 0)) ∧
        (ms[i].valid = true → ∃ ps ns r, out.1[i]? = some ps ∧ out.2[i]? = some ns ∧ ps.length = S ∧ ns.length = S ∧
          r = (good (ms.take i)).length ∧
          ∀ s < S, ∃ t ∈ trisOf ms[i], 0 < areaOf t ∧ ps[s]? = some (point (bary (uv r s).1 (uv r s).2) t) ∧ ns[s]? = some (normalOf t)) := by
  obtain ⟨m0, hm0, hv0⟩ := hne
  have hne' : good ms ≠ [] := List.ne_nil_of_mem (List.mem_filter.mpr ⟨hm0, hv0⟩)
  have hpos' : ∀ m ∈ good ms, 0 < total m := fun m hm => hpos m (List.mem_filter.mp hm).1 (List.mem_filter.mp hm).2
  refine ⟨_, by simp only [samplePoints, choose_eq draw hok hne' hS.ne' hpos', bind, Except.bind]; rfl, ?_, ?_, ?_⟩
  · simp [place_length]
  · simp [place_length]
  · intro i hi
    constructor
    · intro hv
      constructor <;> rw [place_get _ (by simp) hi, hv] <;> rfl
    · intro hv
      have hg := good_take hi hv
      set r := (good (ms.take i)).length with hr
      have hrl : r < (good ms).length := (List.getElem?_eq_some_iff.mp hg).1
      have hgr : (good ms)[r] = ms[i] := (List.getElem?_eq_some_iff.mp hg).2
      let row := (List.range S).map fun s => draw (weights (maxFaces ms) (good ms)[r]) r s + offset ((good ms).map trisOf) r
      refine ⟨row.mapIdx fun s k => point (bary (uv r s).1 (uv r s).2) (pick ((good ms).map trisOf).flatten k),
        row.map fun k => normalOf (pick ((good ms).map trisOf).flatten k), r, ?_, ?_, ?_, ?_, rfl, ?_⟩
      · rw [place_get _ (by simp) hi, hv, if_pos rfl, ← hr, List.getElem?_eq_getElem (by simpa using hrl)]
        simp only [List.getElem_mapIdx, row]
      · rw [place_get _ (by simp) hi, hv, if_pos rfl, ← hr, List.getElem?_eq_getElem (by simpa using hrl)]
        simp only [List.getElem_mapIdx, List.getElem_map, row]
      · simp [row]
      · simp [row]
      · intro s hs
        set k := draw (weights (maxFaces ms) ms[i]) r s with hk
        have hwk := hdraw (weights (maxFaces ms) ms[i]) (weights_nonneg _ _) (by
          rw [weights_sum]; exact hpos _ (List.getElem_mem hi) hv) r s
        rw [← hk] at hwk
        have hkl : k < (trisOf ms[i]).length := by
          by_contra hc
          push Not at hc
          have : (weights (maxFaces ms) ms[i]).getD k 0 = 0 := by
            rw [weights, expectedRow, List.getD_eq_getElem?_getD, List.getElem?_append_right (by simpa using hc), List.getElem?_replicate]
            split_ifs <;> rfl
          linarith
        have hak : 0 < areaOf (trisOf ms[i])[k] := by
          have : (weights (maxFaces ms) ms[i]).getD k 0 = areaOf (trisOf ms[i])[k] := by
            rw [weights, expectedRow, List.getD_eq_getElem?_getD, List.getElem?_append_left (by simpa using hkl), List.getElem?_map,
              List.getElem?_eq_getElem hkl]
            rfl
          linarith
        have hpick : pick ((good ms).map trisOf).flatten (draw (weights (maxFaces ms) (good ms)[r]) r s + offset ((good ms).map trisOf) r) =
            (trisOf ms[i])[k] := by
          rw [hgr, ← hk, pick, List.getD_eq_getElem?_getD, Nat.add_comm]
          have hlen : k < (((good ms).map trisOf)[r]'(by simpa using hrl)).length := by simpa [hgr] using hkl
          rw [flatten_get (by simpa using hrl) hlen]
          simp only [Option.getD_some, List.getElem_map, hgr]
        refine ⟨(trisOf ms[i])[k], List.getElem_mem hkl, hak, ?_, ?_⟩
        · rw [List.getElem?_eq_getElem (by simpa [row] using hs)]
          simp only [List.getElem_mapIdx, List.getElem_map, List.getElem_range, row]
          rw [hpick]
        · rw [List.getElem?_eq_getElem (by simpa [row] using hs)]
          simp only [List.getElem_mapIdx, List.getElem_map, List.getElem_range, row]
          rw [hpick]

/-- The points are inside their triangles: combinations with positive or zero weights of sum one. -/
theorem point_convex {u v : ℝ} (hu : u < 1) (h0 : 0 ≤ v) (h1 : v < 1) (t : Tri) : ∃ a b c : ℝ, 0 < a ∧ 0 ≤ b ∧ 0 ≤ c ∧ a + b + c = 1 ∧
    point (bary u v) t = a • t.1 + b • t.2.1 + c • t.2.2 :=
  ⟨_, _, _, (bary_nonneg hu h0 h1).1, (bary_nonneg hu h0 h1).2.1, (bary_nonneg hu h0 h1).2.2, bary_sum u v, rfl⟩

/-- The normals are perpendicular to the triangle, and of length one unless the triangle is tiny. -/
theorem normalOf_spec (t : Tri) : V3.dot (normalOf t) (t.2.1 - t.1) = 0 ∧ V3.dot (normalOf t) (t.2.2 - t.1) = 0 ∧
    (1 / 2 ^ 53 ≤ areaOf t → V3.normSq (normalOf t) = 1) := by
  have e : V3.cross (t.2.1 - t.1) (t.2.2 - t.2.1) = V3.cross (t.2.1 - t.1) (t.2.2 - t.1) := by
    ext <;> simp [V3.cross] <;> ring
  refine ⟨?_, ?_, ?_⟩
  · simp only [normalOf, Meshes.normalize, V3.dot, V3.cross, V3.smul_x, V3.smul_y, V3.smul_z, V3.sub_x, V3.sub_y, V3.sub_z]; ring
  · simp only [normalOf, Meshes.normalize, V3.dot, V3.cross, V3.smul_x, V3.smul_y, V3.smul_z, V3.sub_x, V3.sub_y, V3.sub_z]; ring
  · intro h
    rw [areaOf] at h
    rw [normalOf, e, Meshes.normalize]
    set c := V3.cross (t.2.1 - t.1) (t.2.2 - t.1)
    have hn : 1 / 2 ^ 52 ≤ Meshes.norm3 c := by
      have : (1 : ℝ) / 2 ^ 53 * 2 = 1 / 2 ^ 52 := by norm_num
      linarith
    have hp : 0 < Meshes.norm3 c := lt_of_lt_of_le (by norm_num) hn
    rw [max_eq_left hn, V3.normSq_smul]
    have : V3.normSq c = Meshes.norm3 c ^ 2 := by
      rw [Meshes.norm3, Real.sq_sqrt]
      simp only [V3.normSq, V3.dot]
      nlinarith [sq_nonneg c.x, sq_nonneg c.y, sq_nonneg c.z]
    rw [this]
    field_simp

/-! ### Errors -/

/-- No mesh with faces: an error. -/
theorem sample_empty (draw : List ℝ → Nat → Nat → Nat) (uv : Nat → Nat → ℝ × ℝ) {ms : List Mesh} (S : Nat) (h : ∀ m ∈ ms, m.valid = false) :
    samplePoints draw uv ms S = .error .value := by
  have : ms.all (fun m => !m.valid) = true := List.all_eq_true.mpr fun m hm => by simp [h m hm]
  simp only [samplePoints, choose, this, if_true, bind, Except.bind]

/-- No samples: an error, whatever the meshes. -/
theorem sample_none (draw : List ℝ → Nat → Nat → Nat) (uv : Nat → Nat → ℝ × ℝ) (ms : List Mesh) :
    ∃ e, samplePoints draw uv ms 0 = .error e := by
  have h : ∃ e, choose draw ms 0 = .error e := by
    unfold choose
    split
    · exact ⟨_, rfl⟩
    · split
      · exact ⟨_, rfl⟩
      · dsimp only
        split
        · exact ⟨_, rfl⟩
        · exact ⟨.runtime, by simp [multinomial, bind, Except.bind]⟩
  obtain ⟨e, he⟩ := h
  exact ⟨e, by simp only [samplePoints, he, bind, Except.bind]⟩

/-- **Textures.**  If a mesh is empty, asking for textures is an error (the documentation promises rows of zeros); otherwise row `i` has faces of
mesh `i`. -/
theorem textures_spec {draw : List ℝ → Nat → Nat → Nat} {ms : List Mesh} {S : Nat} (hok : ∀ m ∈ ms, m.Ok)
    (hne : ∃ m ∈ ms, m.valid = true) (hS : 0 < S) (hpos : ∀ m ∈ ms, m.valid = true → 0 < total m) :
    ((∃ m ∈ ms, m.valid = false) → pixToFace draw ms S = .error .runtime) ∧
    ((∀ m ∈ ms, m.valid = true) → ∃ rows, pixToFace draw ms S = .ok rows ∧ rows.length = ms.length ∧
      (Multinomial draw → ∀ i (hi : i < ms.length), ∀ k ∈ rows.getD i [], ∃ j < ms[i].faces.length,
        k = ((ms.take i).map fun m => m.faces.length).sum + j)) := by
  obtain ⟨m0, hm0, hv0⟩ := hne
  have hne' : good ms ≠ [] := List.ne_nil_of_mem (List.mem_filter.mpr ⟨hm0, hv0⟩)
  have hpos' : ∀ m ∈ good ms, 0 < total m := fun m hm => hpos m (List.mem_filter.mp hm).1 (List.mem_filter.mp hm).2
  constructor
  · rintro ⟨m, hm, hv⟩
    have hlt : (good ms).length < ms.length := by
      refine lt_of_le_of_ne (List.length_filter_le _ _) fun he => ?_
      have := List.length_filter_eq_length_iff.mp he m hm
      rw [hv] at this; cases this
    simp only [pixToFace, choose_eq draw hok hne' hS.ne' hpos', bind, Except.bind, List.length_mapIdx]
    rw [if_neg (fun h => absurd (Nat.eq_of_mul_eq_mul_right hS h) hlt.ne)]
  · intro hall
    have hg : good ms = ms := List.filter_eq_self.mpr hall
    refine ⟨_, by
      simp only [pixToFace, choose_eq draw hok hne' hS.ne' hpos', bind, Except.bind, List.length_mapIdx]
      rw [if_pos (by rw [hg])], by simp [hg], ?_⟩
    intro hdraw i hi k hk
    simp only [hg] at hk
    rw [List.getD_eq_getElem _ _ (by simpa using hi), List.getElem_mapIdx, List.mem_map] at hk
    obtain ⟨s, _, rfl⟩ := hk
    have hwk := hdraw (weights (maxFaces ms) ms[i]) (weights_nonneg _ _) (by
      rw [weights_sum]; exact hpos _ (List.getElem_mem hi) (hall _ (List.getElem_mem hi))) i s
    refine ⟨draw (weights (maxFaces ms) ms[i]) i s, ?_, ?_⟩
    · generalize draw (weights (maxFaces ms) ms[i]) i s = d at hwk ⊢
      by_contra hc
      push Not at hc
      have : (weights (maxFaces ms) ms[i]).getD d 0 = 0 := by
        rw [weights, expectedRow, List.getD_eq_getElem?_getD, List.getElem?_append_right (by simpa [trisOf] using hc), List.getElem?_replicate]
        split_ifs <;> rfl
      linarith
    · rw [Nat.add_comm]
      congr 1
      simp only [offset, ← List.map_take, List.map_map]
      congr 1
      exact List.map_congr_left fun m _ => by simp [trisOf]

/-- A batch with an empty mesh in the middle satisfies the hypotheses. -/
def exMs : List Mesh := [⟨[⟨0, 0, 0⟩, ⟨1, 0, 0⟩, ⟨0, 1, 0⟩], [(0, 1, 2)]⟩, ⟨[⟨5, 5, 5⟩], []⟩, ⟨[⟨0, 0, 0⟩, ⟨1, 0, 0⟩, ⟨0, 1, 0⟩], [(2, 1, 0), (0, 0, 0)]⟩]

theorem area_unit : areaOf ((⟨0, 0, 0⟩, ⟨1, 0, 0⟩, ⟨0, 1, 0⟩) : Tri) = 1 / 2 ∧ areaOf ((⟨0, 1, 0⟩, ⟨1, 0, 0⟩, ⟨0, 0, 0⟩) : Tri) = 1 / 2 := by
  constructor <;> norm_num [areaOf, Meshes.norm3, V3.normSq, V3.dot, V3.cross]

example : (∀ m ∈ exMs, m.Ok) ∧ (∃ m ∈ exMs, m.valid = true) ∧ (∃ m ∈ exMs, m.valid = false) ∧ ∀ m ∈ exMs, m.valid = true → 0 < total m := by
  refine ⟨?_, ⟨_, List.mem_cons_self, rfl⟩, ⟨_, List.mem_cons_of_mem _ List.mem_cons_self, rfl⟩, ?_⟩
  · intro m hm
    fin_cases hm <;> simp [Mesh.Ok]
  · intro m hm
    fin_cases hm
    · intro _; simp [total, trisOf, area_unit.1]
    · intro h; simp [Mesh.valid] at h
    · intro _
      have := areaOf_nonneg ((⟨0, 0, 0⟩, ⟨0, 0, 0⟩, ⟨0, 0, 0⟩) : Tri)
      simp [total, trisOf, area_unit.2]
      linarith

end P3D.SampleMesh
