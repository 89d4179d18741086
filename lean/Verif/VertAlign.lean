/-
`ops/vert_align.py`: `vert_align`.

`F.grid_sample` per channel is `P3D.Uv.gridSample`.  Simplifications: exact arithmetic; images have a positive size and at
least one channel (`grid_sample` and `view(-1, 0)` raise otherwise); points have three coordinates.
-/
import Verif.UvSample
import Verif.StructUtilsProps
import Mathlib.Data.List.GetD

set_option linter.unusedSectionVars false

namespace P3D.VertAlign

open P3D.Uv P3D.StructUtils

variable {K : Type} [Field K] [LinearOrder K] [IsStrictOrderedRing K] [FloorRing K]

/-! ## Model -/

/-- A point `(x, y, z)`. -/
abbrev Pt (K : Type) := K × K × K

/-- The argument `verts`. -/
inductive Verts (K : Type)
  /-- A tensor; the flag says whether it has three dimensions, then it is `(N, V, 3)`. -/
  | tensor (dim3 : Bool) (rows : List (List (Pt K)))
  /-- `Meshes` with these vertices. -/
  | meshes (vs : List (List (Pt K)))
  /-- `Pointclouds` with these points. -/
  | clouds (ps : List (List (Pt K)))
  /-- Anything else. -/
  | other

/-- A feature tensor; the flag says whether it has four dimensions, then it is `(N, C, H, W)`. -/
structure Feat (K : Type) where
  dim4 : Bool
  imgs : List (List (TexMap K))

/-- The largest size. -/
def width {X : Type} (vs : List (List X)) : Nat := (vs.map List.length).foldl max 0

/-- `verts_padded()`, `points_padded()`: rows filled up with zeros (`meshes.py:1005-1034`, `pointclouds.py:762-808`). -/
def padded (vs : List (List (Pt K))) : List (List (Pt K)) :=
  vs.map fun v => v ++ List.replicate (width vs - v.length) (0, 0, 0)

/-- `vert_align.py:58-71`: the grid. -/
def grid : Verts K → Except Err (List (List (Pt K)))
  | .tensor true rows => .ok rows
  | .tensor false _ => .error .valueError
  | .meshes vs => .ok (padded vs)
  | .clouds ps => .ok (padded ps)
  | .other => .error .valueError

/-- `F.grid_sample` of one image: channels by points, `(C, 1, V)` without the middle dimension (`vert_align.py:85-92`). -/
def sampleChannels (c : Cfg) (img : List (TexMap K)) (pts : List (Pt K)) : List (List K) :=
  img.map fun ch => pts.map fun p => gridSample c ch p.1 p.2.1

/-- `transpose(1, 2)`: points by channels (`vert_align.py:93`). -/
def transposed (V : Nat) (x : List (List K)) : List (List K) :=
  (List.range V).map fun i => x.map fun row => row.getD i 0

/-- `torch.cat(feats_sampled, dim=2)` for one element of the batch (`vert_align.py:95`). -/
def catLast (V : Nat) (xs : List (List (List K))) : List (List K) :=
  (List.range V).map fun i => (xs.map fun x => x.getD i []).flatten

/-- The sampled features of one element. -/
def element (c : Cfg) (imgs : List (List (TexMap K))) (pts : List (Pt K)) : List (List K) :=
  catLast pts.length (imgs.map fun img => transposed pts.length (sampleChannels c img pts))

/-- The result: padded or packed. -/
inductive Out (K : Type)
  | pad (x : List (List (List K)))
  | pack (x : List (List K))

/-- `verts_padded_to_packed_idx` is found on `Meshes` only (`vert_align.py:100-106`); `Pointclouds` has `padded_to_packed_idx`. -/
def repack (v : Verts K) (x : List (List (List K))) : Except Err (List (List K)) :=
  match v with
  | .meshes vs => gather x.flatten (packedIdx (width vs) (vs.map List.length))
  | _ => .ok x.flatten

/-- `vert_align` (`vert_align.py:12-108`). -/
def vertAlign (c : Cfg) (feats : List (Feat K)) (v : Verts K) (returnPacked : Bool) : Except Err (Out K) := do
  let g ← grid v
  if feats.any fun f => !f.dim4 || g.length != f.imgs.length then .error .valueError
  else if feats.isEmpty then .error .runtimeError
  else
    let x := g.mapIdx fun n pts => element c (feats.map fun f => f.imgs.getD n []) pts
    if returnPacked then do
      let r ← repack v x
      pure (.pack r)
    else pure (.pad x)

/-! ## Specification -/

/-- The feature vector of one point in the images of its element: the channels of all images, in order, at `(x, y)`. -/
def featOf (c : Cfg) (imgs : List (List (TexMap K))) (p : Pt K) : List K :=
  imgs.flatMap fun img => img.map fun ch => gridSample c ch p.1 p.2.1

/-- The images of element `n`. -/
def imgsOf (feats : List (Feat K)) (n : Nat) : List (List (TexMap K)) := feats.map fun f => f.imgs.getD n []

/-- All features given are fit for `N` elements. -/
def Fits (feats : List (Feat K)) (N : Nat) : Prop := feats ≠ [] ∧ ∀ f ∈ feats, f.dim4 = true ∧ f.imgs.length = N

/-! ## Theorems -/

theorem element_eq (c : Cfg) (imgs : List (List (TexMap K))) (pts : List (Pt K)) :
    element c imgs pts = pts.map (featOf c imgs) := by
  apply List.ext_getElem
  · simp [element, catLast]
  · intro i h1 h2
    have hi : i < pts.length := by simpa using h2
    simp only [element, catLast, List.getElem_map, List.getElem_range, List.map_map, featOf, List.flatMap_def]
    congr 1
    apply List.map_congr_left
    intro img _
    simp only [Function.comp, transposed, sampleChannels]
    rw [List.getD_eq_getElem _ _ (by simpa using hi)]
    simp only [List.getElem_map, List.getElem_range, List.map_map]
    apply List.map_congr_left
    intro ch _
    simp only [Function.comp]
    rw [List.getD_eq_getElem _ _ (by simpa using hi), List.getElem_map]

theorem fits_any {feats : List (Feat K)} {N : Nat} (h : Fits feats N) :
    (feats.any fun f => !f.dim4 || N != f.imgs.length) = false := by
  rw [List.any_eq_false]
  intro f hf
  obtain ⟨h1, h2⟩ := h.2 f hf
  simp [h1, h2]

theorem run_ok (c : Cfg) {feats : List (Feat K)} {v : Verts K} {g : List (List (Pt K))} (hg : grid v = .ok g)
    (h : Fits feats g.length) (pk : Bool) : vertAlign c feats v pk =
      (if pk then do
        let r ← repack v (g.mapIdx fun n pts => pts.map (featOf c (imgsOf feats n)))
        pure (.pack r)
      else pure (.pad (g.mapIdx fun n pts => pts.map (featOf c (imgsOf feats n))))) := by
  unfold vertAlign
  rw [hg]
  have hne : feats.isEmpty = false := by
    cases hf : feats with
    | nil => exact absurd hf h.1
    | cons a l => rfl
  have := fits_any h
  simp only [bind, Except.bind, this, hne, Bool.false_eq_true, if_false, element_eq]
  rfl

/-- **C77.** Errors: exactly for a tensor that does not have three dimensions, for an object that is neither a tensor nor
meshes nor point clouds, for no features at all, and for features without four dimensions or of another batch size. -/
theorem vertAlign_error (c : Cfg) (feats : List (Feat K)) (v : Verts K) :
    (∃ e, vertAlign c feats v false = .error e) ↔ ∀ g, grid v = .ok g → ¬ Fits feats g.length := by
  constructor
  · rintro ⟨e, he⟩ g hg hf
    rw [run_ok c hg hf] at he
    cases he
  · intro h
    cases hg : grid v with
    | error e => exact ⟨e, by simp [vertAlign, hg, bind, Except.bind]⟩
    | ok g =>
      have hf := h g hg
      by_cases hb : (feats.any fun f => !f.dim4 || g.length != f.imgs.length) = true
      · exact ⟨.valueError, by simp only [vertAlign, hg, bind, Except.bind, hb, if_true]⟩
      · by_cases he : feats.isEmpty = true
        · exact ⟨.runtimeError, by
            rw [Bool.not_eq_true] at hb
            simp only [vertAlign, hg, bind, Except.bind, hb, he, if_true, Bool.false_eq_true, if_false]⟩
        · exfalso
          apply hf
          refine ⟨by rintro rfl; exact he rfl, fun f hm => ?_⟩
          rw [List.any_eq_true] at hb
          have : ¬ (!f.dim4 || g.length != f.imgs.length) = true := fun h => hb ⟨f, hm, h⟩
          simp only [Bool.or_eq_true, Bool.not_eq_true', bne_iff_ne, ne_eq, not_or, Bool.not_eq_false, not_not] at this
          exact ⟨this.1, this.2.symm⟩

/-- **C77.** Padded output of a tensor: entry `(n, i)` is the feature vector of point `i` of element `n` in the images of
element `n`; it depends on nothing else. -/
theorem align_tensor (c : Cfg) (feats : List (Feat K)) (rows : List (List (Pt K))) (h : Fits feats rows.length) :
    ∃ out, vertAlign c feats (.tensor true rows) false = .ok (.pad out) ∧ out.length = rows.length ∧
      ∀ n (hn : n < rows.length), out[n]? = some (rows[n].map (featOf c (imgsOf feats n))) := by
  refine ⟨_, run_ok c rfl h false, by simp, ?_⟩
  intro n hn
  simp [hn]

theorem length_le_width {X : Type} (vs : List (List X)) : ∀ v ∈ vs, v.length ≤ width vs := by
  have key : ∀ (l : List Nat) (a : Nat), a ≤ l.foldl max a ∧ ∀ x ∈ l, x ≤ l.foldl max a := by
    intro l
    induction l with
    | nil => intro a; exact ⟨le_refl a, by simp⟩
    | cons b l ih =>
      intro a
      obtain ⟨h1, h2⟩ := ih (max a b)
      refine ⟨le_trans (le_max_left a b) h1, ?_⟩
      intro x hx
      rcases List.mem_cons.mp hx with rfl | hx
      · exact le_trans (le_max_right a x) h1
      · exact h2 x hx
  intro v hv
  exact (key _ 0).2 _ (List.mem_map_of_mem hv)

/-- **C77.** Padded output of meshes or point clouds: the first entries of row `n` are the features of the points; the
others are not zero but the features at the centre `(0, 0)` of the images. -/
theorem align_padded (c : Cfg) (feats : List (Feat K)) (vs : List (List (Pt K))) (h : Fits feats vs.length) :
    ∃ out, vertAlign c feats (.meshes vs) false = .ok (.pad out) ∧ vertAlign c feats (.clouds vs) false = .ok (.pad out) ∧
      out.length = vs.length ∧ ∀ n (hn : n < vs.length), out[n]? = some (vs[n].map (featOf c (imgsOf feats n)) ++
        List.replicate (width vs - vs[n].length) (featOf c (imgsOf feats n) (0, 0, 0))) := by
  have h' : Fits feats (padded vs).length := by unfold padded; rw [List.length_map]; exact h
  refine ⟨_, run_ok c (v := .meshes vs) rfl h' false, run_ok c (v := .clouds vs) rfl h' false, by simp [padded], ?_⟩
  intro n hn
  simp [padded, hn]

theorem mapM_gather {X : Type} (l : List X) (idx : List Nat) (out : List X) (h : idx.map (fun i => l[i]?) = out.map some) :
    gather l idx = .ok out := mapM_lookup_ok _ _ _ h

/-- **C77.** Packed output of meshes: one row for every vertex, in the order of `verts_packed`, none for the padding. -/
theorem align_packed_meshes (c : Cfg) (feats : List (Feat K)) (vs : List (List (Pt K))) (h : Fits feats vs.length) :
    vertAlign c feats (.meshes vs) true
      = .ok (.pack (vs.mapIdx fun n v => v.map (featOf c (imgsOf feats n))).flatten) := by
  have h' : Fits feats (padded vs).length := by unfold padded; rw [List.length_map]; exact h
  rw [run_ok c (v := .meshes vs) rfl h' true]
  have hx : ∀ r ∈ (padded vs).mapIdx fun n pts => pts.map (featOf c (imgsOf feats n)), r.length = width vs := by
    intro r hr
    obtain ⟨n, hn, rfl⟩ := List.mem_mapIdx.mp hr
    have hn' : n < vs.length := by simpa [padded] using hn
    have := length_le_width vs vs[n] (List.getElem_mem hn')
    simp [padded]; omega
  have := mapM_gather _ _ _ (packedIdx_lookup (width vs) _ (vs.map List.length) hx (by simp [padded]) (by
    intro k hk
    obtain ⟨v, hv, rfl⟩ := List.mem_map.mp hk
    exact length_le_width vs v hv))
  simp only [if_true, repack, this, bind, Except.bind, pure, Except.pure]
  congr 3
  apply List.ext_getElem
  · simp [padded]
  · intro n h1 h2
    have hn : n < vs.length := by simpa using h2
    simp [padded, List.take_left']

/-- **C77.** Packed output of a tensor: all rows one after the other. -/
theorem align_packed_tensor (c : Cfg) (feats : List (Feat K)) (rows : List (List (Pt K))) (h : Fits feats rows.length) :
    vertAlign c feats (.tensor true rows) true
      = .ok (.pack (rows.mapIdx fun n v => v.map (featOf c (imgsOf feats n))).flatten) := by
  rw [run_ok c (v := .tensor true rows) rfl h true]
  rfl

/-- **C77.** Packed output of point clouds still has the padding: its length is `N` times the largest number of points, so it
is the packed result that is documented exactly if all clouds have the same number of points. -/
theorem align_packed_clouds (c : Cfg) (feats : List (Feat K)) (ps : List (List (Pt K))) (h : Fits feats ps.length) :
    ∃ out, vertAlign c feats (.clouds ps) true = .ok (.pack out) ∧ out.length = ps.length * width ps ∧
      (out.length = (ps.map List.length).sum ↔ ∀ v ∈ ps, v.length = width ps) := by
  have h' : Fits feats (padded ps).length := by unfold padded; rw [List.length_map]; exact h
  refine ⟨_, run_ok c (v := .clouds ps) rfl h' true, ?_⟩
  have hlen : ((padded ps).mapIdx fun n pts => pts.map (featOf c (imgsOf feats n))).flatten.length = ps.length * width ps := by
    rw [List.length_flatten]
    have : List.map List.length ((padded ps).mapIdx fun n pts => pts.map (featOf c (imgsOf feats n))) = List.replicate ps.length (width ps) := by
      apply List.ext_getElem
      · simp [padded]
      · intro n h1 h2
        have hn : n < ps.length := by simpa using h2
        have := length_le_width ps ps[n] (List.getElem_mem hn)
        simp [padded]; omega
    rw [this, List.sum_replicate, smul_eq_mul]
  refine ⟨hlen, ?_⟩
  rw [hlen]
  have key : ∀ (W : Nat) (l : List (List (Pt K))), (∀ v ∈ l, v.length ≤ W) →
      (l.map List.length).sum ≤ l.length * W ∧ (l.length * W = (l.map List.length).sum ↔ ∀ v ∈ l, v.length = W) := by
    intro W l
    induction l with
    | nil => intro _; simp
    | cons a l ih =>
      intro hl
      obtain ⟨h1, h2⟩ := ih (fun v hv => hl v (by simp [hv]))
      have ha := hl a (by simp)
      have hm : (l.length + 1) * W = l.length * W + W := by ring
      simp only [List.map_cons, List.sum_cons, List.length_cons, hm, List.forall_mem_cons]
      refine ⟨by omega, ?_⟩
      rw [← h2]
      omega
  exact (key (width ps) ps (length_le_width ps)).2

/-! ### Where a point reads -/

/-- **C77.** With `align_corners`, `(-1, -1)` is the centre of the first pixel of the first row and `(1, 1)` the centre of the
last pixel of the last row: the point at pixel `(i, j)` gets that pixel, in all modes. -/
theorem pixel_align (c : Cfg) (hc : c.align = true) (m : TexMap K) (i j : Nat) (hi : i < m.H) (hj : j < m.W)
    {gx gy : K} (hx : (gx + 1) * ((m.W : K) - 1) = 2 * j) (hy : (gy + 1) * ((m.H : K) - 1) = 2 * i) :
    gridSample c m gx gy = m.val i j := by
  have ux : unnorm c.align (m.W : Int) gx = ((j : Int) : K) := by
    unfold unnorm; rw [hc]; simp; linear_combination hx / 2
  have uy : unnorm c.align (m.H : Int) gy = ((i : Int) : K) := by
    unfold unnorm; rw [hc]; simp; linear_combination hy / 2
  rw [gridSample_eq, ux, uy, padCoord_id _ _ (by simp) (by
    have : ((j + 1 : Nat) : K) ≤ (m.W : K) := Nat.cast_le.mpr hj
    push_cast at this ⊢; linarith), padCoord_id _ _ (by simp) (by
    have : ((i + 1 : Nat) : K) ≤ (m.H : K) := Nat.cast_le.mpr hi
    push_cast at this ⊢; linarith)]
  have : texel m (i : Int) (j : Int) = m.val i j := by
    unfold texel; rw [if_pos (by omega)]
  cases hm : c.mode <;> simp only [along]
  · rw [lin_int, lin_int, this]
  · rw [roundEven_int, roundEven_int, this]

/-- **C77.** Without `align_corners` the pixel `(i, j)` is at `((2 j + 1) / W - 1, (2 i + 1) / H - 1)`. -/
theorem pixel_half (c : Cfg) (hc : c.align = false) (m : TexMap K) (i j : Nat) (hi : i < m.H) (hj : j < m.W)
    {gx gy : K} (hx : (gx + 1) * (m.W : K) = 2 * j + 1) (hy : (gy + 1) * (m.H : K) = 2 * i + 1) :
    gridSample c m gx gy = m.val i j := by
  have ux : unnorm c.align (m.W : Int) gx = ((j : Int) : K) := by
    unfold unnorm; rw [hc]; simp; linear_combination hx / 2
  have uy : unnorm c.align (m.H : Int) gy = ((i : Int) : K) := by
    unfold unnorm; rw [hc]; simp; linear_combination hy / 2
  rw [gridSample_eq, ux, uy, padCoord_id _ _ (by simp) (by
    have : ((j + 1 : Nat) : K) ≤ (m.W : K) := Nat.cast_le.mpr hj
    push_cast at this ⊢; linarith), padCoord_id _ _ (by simp) (by
    have : ((i + 1 : Nat) : K) ≤ (m.H : K) := Nat.cast_le.mpr hi
    push_cast at this ⊢; linarith)]
  have : texel m (i : Int) (j : Int) = m.val i j := by
    unfold texel; rw [if_pos (by omega)]
  cases hm : c.mode <;> simp only [along]
  · rw [lin_int, lin_int, this]
  · rw [roundEven_int, roundEven_int, this]

theorem lin_between {g : Int → K} {lo hi x : K} (h : ∀ i, lo ≤ g i ∧ g i ≤ hi) : lo ≤ lin g x ∧ lin g x ≤ hi := by
  have h0 := Int.floor_le x
  have h1 := Int.lt_floor_add_one x
  have a := h ⌊x⌋
  have b := h (⌊x⌋ + 1)
  unfold lin
  constructor
  · nlinarith [mul_nonneg (sub_nonneg.mpr h0) (sub_nonneg.mpr b.1), mul_nonneg (by linarith : (0 : K) ≤ 1 - (x - ⌊x⌋)) (sub_nonneg.mpr a.1)]
  · nlinarith [mul_nonneg (sub_nonneg.mpr h0) (sub_nonneg.mpr b.2), mul_nonneg (by linarith : (0 : K) ≤ 1 - (x - ⌊x⌋)) (sub_nonneg.mpr a.2)]

theorem along_between {mode : Mode} {g : Int → K} {lo hi x : K} (h : ∀ i, lo ≤ g i ∧ g i ≤ hi) :
    lo ≤ along mode g x ∧ along mode g x ≤ hi := by
  cases mode
  · exact lin_between h
  · exact h _

/-- The padded coordinate lies in the image unless the padding is zeros. -/
theorem padCoord_range (align : Bool) {pad : Padding} (hp : pad ≠ .zeros) {size : Int} (hs : 1 ≤ size) (x : K) :
    0 ≤ padCoord align pad size x ∧ padCoord align pad size x ≤ (size : K) - 1 := by
  have hc : ∀ y : K, 0 ≤ clipC size y ∧ clipC size y ≤ (size : K) - 1 := by
    intro y
    have : (1 : K) ≤ size := by exact_mod_cast hs
    unfold clipC
    exact ⟨le_min (by linarith) (le_max_right _ _), min_le_left _ _⟩
  cases pad
  · exact absurd rfl hp
  · exact hc _
  · exact hc _

/-- **C77.** With border or reflection padding every feature lies between the smallest and the largest value of its channel,
wherever the point is. -/
theorem feature_between (c : Cfg) (hp : c.pad ≠ .zeros) (m : TexMap K) (hH : 1 ≤ m.H) (hW : 1 ≤ m.W) {lo hi : K}
    (h : ∀ i j : Int, 0 ≤ i → i < m.H → 0 ≤ j → j < m.W → lo ≤ m.val i j ∧ m.val i j ≤ hi) (gx gy : K) :
    lo ≤ gridSample c m gx gy ∧ gridSample c m gx gy ≤ hi := by
  rw [gridSample_eq]
  obtain ⟨x0, x1⟩ := padCoord_range c.align hp (by omega : (1 : Int) ≤ m.W) (unnorm c.align (m.W : Int) gx)
  obtain ⟨y0, y1⟩ := padCoord_range c.align hp (by omega : (1 : Int) ≤ m.H) (unnorm c.align (m.H : Int) gy)
  revert x0 x1 y0 y1
  generalize padCoord c.align c.pad (m.W : Int) (unnorm c.align (m.W : Int) gx) = x
  generalize padCoord c.align c.pad (m.H : Int) (unnorm c.align (m.H : Int) gy) = y
  intro x0 x1 y0 y1
  have key : ∀ i : Int, 0 ≤ i → i ≤ (m.H : Int) - 1 → along c.mode (fun j => texel m i j) x
      = along c.mode (fun j => m.val i (clampI m.W j)) x := by
    intro i i0 i1
    apply along_congr c.mode (lo := 0) (hi := (m.W : Int) - 1) (by simpa using x0) (by push_cast; simpa using x1)
    intro j j0 j1
    have : clampI (m.W : Int) j = j := by unfold clampI; omega
    rw [this]
    unfold texel; rw [if_pos (by omega)]
  have e : along c.mode (fun i => along c.mode (fun j => texel m i j) x) y
      = along c.mode (fun i => along c.mode (fun j => m.val (clampI m.H i) (clampI m.W j)) x) y := by
    apply along_congr c.mode (lo := 0) (hi := (m.H : Int) - 1) (by simpa using y0) (by push_cast; simpa using y1)
    intro i i0 i1
    have : clampI (m.H : Int) i = i := by unfold clampI; omega
    rw [this]
    exact key i i0 i1
  rw [e]
  apply along_between
  intro i
  apply along_between
  intro j
  apply h <;> unfold clampI <;> omega

/-- With zero padding a point far outside gets zero in every channel. -/
theorem outside_zero (c : Cfg) (hp : c.pad = .zeros) (m : TexMap K) {gx gy : K}
    (h : unnorm c.align (m.W : Int) gx ≤ -1 ∨ (m.W : K) ≤ unnorm c.align (m.W : Int) gx) : gridSample c m gx gy = 0 := by
  rw [gridSample_eq, hp]
  simp only [padCoord]
  have hz : ∀ i, along c.mode (fun j => texel m i j) (unnorm c.align (m.W : Int) gx) = 0 := by
    intro i
    generalize unnorm c.align (m.W : Int) gx = x at h
    have ht : ∀ j : Int, (j < 0 ∨ (m.W : Int) ≤ j) → texel m i j = 0 := by
      intro j hj
      unfold texel; rw [if_neg (by omega)]
    rcases h with h | h
    · rcases eq_or_lt_of_le h with h | h
      · subst h
        have : ((-1 : K)) = ((-1 : Int) : K) := by simp
        cases c.mode <;> simp only [along] <;> rw [this]
        · rw [lin_int]; exact ht _ (by omega)
        · rw [roundEven_int]; exact ht _ (by omega)
      · have hf : ⌊x⌋ < -1 := Int.floor_lt.mpr (by simpa using h)
        cases c.mode <;> simp only [along]
        · exact lin_const (ht _ (by omega)) (ht _ (by omega))
        · apply ht
          left
          have := (roundEven_bounds x).2
          have : (roundEven x : K) < ((0 : Int) : K) := by push_cast; linarith
          exact_mod_cast this
    · have hf : (m.W : Int) ≤ ⌊x⌋ := Int.le_floor.mpr (by simpa using h)
      cases c.mode <;> simp only [along]
      · exact lin_const (ht _ (by omega)) (ht _ (by omega))
      · apply ht
        right
        have := (roundEven_bounds x).1
        have : (((m.W : Int) - 1 : Int) : K) < (roundEven x : K) := by push_cast; linarith
        have : (m.W : Int) - 1 < roundEven x := by exact_mod_cast this
        omega
  simp only [hz]
  cases c.mode <;> simp [along, lin]

/-! ## Examples -/

/-- An image of 2 by 2 pixels. -/
def exImg : TexMap ℚ := ⟨2, 2, fun i j => 10 * i + j⟩

def exCfg : Cfg := ⟨.bilinear, true, .zeros⟩

/-- Two clouds with one and two points: three points, but four packed rows, the second being the padding; for meshes three. -/
example :
    (match vertAlign exCfg [⟨true, [[exImg], [exImg]]⟩] (.clouds [[(-1, -1, 7)], [(1, -1, 0), (1, 1, 0)]]) true with
      | .ok (.pack x) => decide (x = [[0], [11 / 2], [1], [11]]) | _ => false) = true ∧
    (match vertAlign exCfg [⟨true, [[exImg], [exImg]]⟩] (.meshes [[(-1, -1, 7)], [(1, -1, 0), (1, 1, 0)]]) true with
      | .ok (.pack x) => decide (x = [[0], [1], [11]]) | _ => false) = true := by decide +kernel

/-- Features of another batch size. -/
example : (match vertAlign exCfg [⟨true, [[exImg]]⟩] (.meshes [[(-1, -1, 7)], [(1, -1, 0)]]) false with
      | .error .valueError => true | _ => false) = true := by decide +kernel

end P3D.VertAlign
