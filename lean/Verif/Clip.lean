/-
`clip_faces` and `convert_clipped_rasterization_to_original_faces`
(`pytorch3d/renderer/mesh/clip.py`) on whole batches.
-/
import Verif.ClipGeom
import Verif.Mem
import Verif.MarchingGpu

set_option linter.unusedSectionVars false
set_option linter.unusedSimpArgs false
set_option linter.unnecessarySeqFocus false

namespace P3D.Clip

open P3D.Mem

variable {K : Type} [Field K] [LinearOrder K] [IsStrictOrderedRing K]

/-- Exceptions. -/
inductive Err
  /-- IndexError -/
  | index
  /-- UnboundLocalError for `faces_clipped_verts` -/
  | unbound
  deriving DecidableEq

/-- clip.py:35-96 `ClippedFaces`. -/
structure Clipped (K : Type) where
  faceVerts : List (Tri K)
  firstIdx : List Int
  numFaces : List Int
  toUnclipped : Option (List Nat) := none
  conv : Option (List (Tri K)) := none
  convIdx : Option (List Int) := none
  neighbor : Option (List Int) := none

/-- clip.py:404 `cases1_unclipped`. -/
def is1 (fr : Frustum K) (f : Tri K) : Bool := numBehind fr.zclip f == 0 && !culled fr f
/-- clip.py:407 `case2_unclipped`. -/
def is2 (fr : Frustum K) (f : Tri K) : Bool := numBehind fr.zclip f == 3 || culled fr f
/-- clip.py:409 `case3_unclipped`. -/
def is3 (fr : Frustum K) (f : Tri K) : Bool := numBehind fr.zclip f == 2 && !culled fr f
/-- clip.py:412 `case4_unclipped`. -/
def is4 (fr : Frustum K) (f : Tri K) : Bool := numBehind fr.zclip f == 1 && !culled fr f

/-- Row `u` of `face_verts_unclipped`. -/
def row (fs : List (Tri K)) (u : Nat) : Tri K := fs.getD u fun _ => 0

/-- `p(face_verts).nonzero(as_tuple=True)[0]`. -/
def nonzero (p : Tri K → Bool) (fs : List (Tri K)) : List Nat :=
  (List.range fs.length).filter fun u => p (row fs u)

/-- `torch.cumsum(0)`. -/
def cumsum (l : List Int) : List Int := (List.range l.length).map fun i => (l.take (i + 1)).sum

/-- clip.py:431-432 `faces_unclipped_to_clipped_idx`. -/
def offsets (fr : Frustum K) (fs : List (Tri K)) : List Int :=
  let delta := fs.map fun f => 1 + ((is4 fr f).toNat : Int) - ((is2 fr f).toNat : Int)
  List.zipWith (· - ·) (cumsum delta) delta

/-- clip.py:425-430 and 438-440 `F_clipped`. -/
def countClipped (fr : Frustum K) (fs : List (Tri K)) : Int :=
  let fd := fs.map fun f => ((is4 fr f).toNat : Int) - ((is2 fr f).toNat : Int)
  let cum := List.zipWith (· - ·) (cumsum fd) fd
  fs.length + cum.getLastD 0 + fd.getLastD 0

/-- `t[idx] = vals` with an index tensor: the order of the stores is not specified, `sh` is it. -/
def store (sh : ∀ α : Type, List α → List α) {α : Type} (buf : List α) (idx : List Int) (vals : List α) :
    Except Err (List α) :=
  match writeAll buf (sh _ ((idx.map Int.toNat).zip vals)) with
  | none => .error .index
  | some b => .ok b

/-- `torch.where(mask)[1]` of one row: the columns where it holds. -/
def cols (p : Fin 3 → Bool) : List (Fin 3) := [0, 1, 2].filter p

/-- clip.py:466-630: cases 3 and 4 and the conversion tables. -/
def clipRest (sh : ∀ α : Type, List α → List α) (fr : Frustum K) (c : K) (fs : List (Tri K))
    (fv : List (Tri K)) (tu : List Nat) (firstIdx numFaces : List Int) : Except Err (Clipped K) := do
  let off := offsets fr fs
  let u3 := nonzero (is3 fr) fs
  let u4 := nonzero (is4 fr) fs
  let n := (countClipped fr fs).toNat
  -- 486-517
  let q3 := List.zipWith (findVerts c fr.perspective) (u3.map (row fs)) (u3.flatMap fun u => cols fun k => !behind c (row fs u) k)
  let i3 := u3.map fun u => off.getD u 0
  let fv ← store sh fv i3 (q3.map fun q => (case3 q).1)
  let tu ← store sh tu i3 u3
  -- 542-568
  let q4 := List.zipWith (findVerts c fr.perspective) (u4.map (row fs)) (u4.flatMap fun u => cols (behind c (row fs u)))
  let i4 := u4.map fun u => off.getD u 0
  let i4' := i4.map (· + 1)
  let fv ← store sh fv i4 (q4.map fun q => (case4a q).1)
  let fv ← store sh fv i4' (q4.map fun q => (case4b q).1)
  let tu ← store sh tu i4 u4
  let tu ← store sh tu i4' u4
  -- 582-599
  let conv := q3.map (fun q => (case3 q).2) ++ q4.map (fun q => (case4a q).2) ++ q4.map (fun q => (case4b q).2)
  let ci ← store sh (List.replicate n (-1 : Int)) (i3 ++ i4 ++ i4') ((List.range conv.length).map fun (k : Nat) => (k : Int))
  -- 607-611
  let nb ← store sh (List.replicate n (-1 : Int)) i4 i4'
  let nb ← store sh nb i4' i4
  .ok ⟨fv, firstIdx, numFaces, some tu, some conv, some ci, some nb⟩

/-- clip.py:320-630 `clip_faces`. -/
def clipFaces (sh : ∀ α : Type, List α → List α) (fr : Frustum K) (fs : List (Tri K)) (first num : List Int) :
    Except Err (Clipped K) :=
  -- 383-388
  if (fs.map (numBehind fr.zclip)).sum = 0 ∧ (fs.map fun f => (culled fr f).toNat).sum = 0 then
    .ok { faceVerts := fs, firstIdx := first, numFaces := num }
  else
    let off := offsets fr fs
    let n := countClipped fr fs
    -- 449-454
    match first.mapM fun i => off[i.toNat]? with
    | none => .error .index
    | some first' => do
      let num' := List.zipWith (· - ·) (first'.tail ++ [n]) first'
      -- 460-462
      let u1 := nonzero (is1 fr) fs
      let i1 := u1.map fun u => off.getD u 0
      let fv ← store sh (List.replicate n.toNat (fun _ => 0)) i1 (u1.map (row fs))
      let tu ← store sh (List.replicate n.toNat 0) i1 u1
      -- 466-472
      if (nonzero (is3 fr) fs).length + (nonzero (is4 fr) fs).length = 0 then
        .ok { faceVerts := fv, firstIdx := first', numFaces := num', toUnclipped := some tu }
      else
        match fr.zclip with
        | none => .error .unbound
        | some c => clipRest sh fr c fs fv tu first' num'

/-- Python indexing with negative indices counted from the end. -/
def pyGet {α : Type} (l : List α) (i : Int) : Option α := if i < 0 then l[(l.length + i).toNat]? else l[i.toNat]?

/-- clip.py:633-752 `convert_clipped_rasterization_to_original_faces`, one entry of `pix_to_face`
and its barycentric coordinates (all entries are treated alike).  `none` is an IndexError. -/
def convert (r : Clipped K) (pix : Int) (b : V3 K) : Option (Int × V3 K) :=
  match r.toUnclipped with
  | none => some (pix, b)
  | some tu =>
    if tu.length = 0 then some (pix, b) else do
      let g ← pyGet tu pix
      let pix' := if pix ≠ -1 then (g : Int) else -1
      match r.conv, r.convIdx with
      | some conv, some ci => do
        let k ← pyGet ci pix
        let k := if pix ≠ -1 then k else -1
        if k ≠ -1 then do
          let m ← pyGet conv k
          some (pix', interp m b)
        else some (pix', b)
      | _, _ => some (pix', b)

/-! ### The four cases of one face -/

/-- The clipped triangles of a face, with the conversion matrix if there is one. -/
def parts (fr : Frustum K) (f : Tri K) : List (Tri K × Option (Tri K)) :=
  if is1 fr f then [(f, none)] else
  match fr.zclip with
  | none => []
  | some c =>
    if is3 fr f then (cols fun k => !behind c f k).map fun i =>
      ((case3 (findVerts c fr.perspective f i)).1, some (case3 (findVerts c fr.perspective f i)).2)
    else if is4 fr f then (cols (behind c f)).flatMap fun i =>
      [((case4a (findVerts c fr.perspective f i)).1, some (case4a (findVerts c fr.perspective f i)).2),
       ((case4b (findVerts c fr.perspective f i)).1, some (case4b (findVerts c fr.perspective f i)).2)]
    else []

theorem odd1 {c : K} {f : Tri K} (h : numBehind (some c) f = 1) : ∃ i, cols (behind c f) = [i] ∧
    (f i).z < c ∧ c ≤ (f (i + 1)).z ∧ c ≤ (f (i + 2)).z := by
  have e : ∀ i, (behind c f i = true ↔ (f i).z < c) := fun i => by simp [behind]
  unfold numBehind at h
  unfold cols
  rcases h0 : behind c f 0 <;> rcases h1 : behind c f 1 <;> rcases h2 : behind c f 2 <;>
    simp only [h0, h1, h2, Bool.toNat_true, Bool.toNat_false] at h <;> try omega
  · refine ⟨2, by simp [h0, h1, h2], (e 2).mp h2, ?_, ?_⟩
    · exact not_lt.mp (fun h => by simp [(e 0).mpr h] at h0)
    · exact not_lt.mp (fun h => by simp [(e 1).mpr h] at h1)
  · refine ⟨1, by simp [h0, h1, h2], (e 1).mp h1, ?_, ?_⟩
    · exact not_lt.mp (fun h => by simp [(e 2).mpr h] at h2)
    · exact not_lt.mp (fun h => by simp [(e 0).mpr h] at h0)
  · refine ⟨0, by simp [h0, h1, h2], (e 0).mp h0, ?_, ?_⟩
    · exact not_lt.mp (fun h => by simp [(e 1).mpr h] at h1)
    · exact not_lt.mp (fun h => by simp [(e 2).mpr h] at h2)

theorem odd2 {c : K} {f : Tri K} (h : numBehind (some c) f = 2) : ∃ i, cols (fun k => !behind c f k) = [i] ∧
    c ≤ (f i).z ∧ (f (i + 1)).z < c ∧ (f (i + 2)).z < c := by
  have e : ∀ i, (behind c f i = true ↔ (f i).z < c) := fun i => by simp [behind]
  unfold numBehind at h
  unfold cols
  rcases h0 : behind c f 0 <;> rcases h1 : behind c f 1 <;> rcases h2 : behind c f 2 <;>
    simp only [h0, h1, h2, Bool.toNat_true, Bool.toNat_false] at h <;> try omega
  · refine ⟨0, by simp [h0, h1, h2], ?_, (e 1).mp h1, (e 2).mp h2⟩
    exact not_lt.mp (fun h => by simp [(e 0).mpr h] at h0)
  · refine ⟨1, by simp [h0, h1, h2], ?_, (e 2).mp h2, (e 0).mp h0⟩
    exact not_lt.mp (fun h => by simp [(e 1).mpr h] at h1)
  · refine ⟨2, by simp [h0, h1, h2], ?_, (e 0).mp h0, (e 1).mp h1⟩
    exact not_lt.mp (fun h => by simp [(e 2).mpr h] at h2)

theorem behind0 {c : K} {f : Tri K} (h : numBehind (some c) f = 0) (k : Fin 3) : c ≤ (f k).z := by
  have e : ∀ i, (behind c f i = true ↔ (f i).z < c) := fun i => by simp [behind]
  unfold numBehind at h
  rcases h0 : behind c f 0 <;> rcases h1 : behind c f 1 <;> rcases h2 : behind c f 2 <;>
    simp only [h0, h1, h2, Bool.toNat_true, Bool.toNat_false] at h <;> try omega
  refine not_lt.mp fun h => ?_
  have := (e k).mpr h
  fin_cases k <;> simp_all

theorem behind3 {c : K} {f : Tri K} (h : numBehind (some c) f = 3) (k : Fin 3) : (f k).z < c := by
  have e : ∀ i, (behind c f i = true ↔ (f i).z < c) := fun i => by simp [behind]
  unfold numBehind at h
  rcases h0 : behind c f 0 <;> rcases h1 : behind c f 1 <;> rcases h2 : behind c f 2 <;>
    simp only [h0, h1, h2, Bool.toNat_true, Bool.toNat_false] at h <;> try omega
  rw [← e]
  fin_cases k <;> assumption

theorem numBehind_le (z : Option K) (f : Tri K) : numBehind z f ≤ 3 := by
  unfold numBehind
  cases z with
  | none => simp
  | some c =>
    simp only
    have h : ∀ b : Bool, b.toNat ≤ 1 := by decide
    have h0 := h (behind c f 0)
    have h1 := h (behind c f 1)
    have h2 := h (behind c f 2)
    omega

/-- The shape of `parts`, by case. -/
theorem parts_cases (fr : Frustum K) (f : Tri K) :
    (is1 fr f = true ∧ is2 fr f = false ∧ is3 fr f = false ∧ is4 fr f = false ∧ parts fr f = [(f, none)] ∧
      culled fr f = false ∧ ∀ c, fr.zclip = some c → ∀ k, c ≤ (f k).z) ∨
    (is1 fr f = false ∧ is2 fr f = true ∧ is3 fr f = false ∧ is4 fr f = false ∧ parts fr f = [] ∧
      (culled fr f = true ∨ ∃ c, fr.zclip = some c ∧ ∀ k, (f k).z < c)) ∨
    (is1 fr f = false ∧ is2 fr f = false ∧ is3 fr f = true ∧ is4 fr f = false ∧ culled fr f = false ∧ ∃ c i, fr.zclip = some c ∧
      cols (fun k => !behind c f k) = [i] ∧ c ≤ (f i).z ∧ (f (i + 1)).z < c ∧ (f (i + 2)).z < c ∧
      parts fr f = [((case3 (findVerts c fr.perspective f i)).1, some (case3 (findVerts c fr.perspective f i)).2)]) ∨
    (is1 fr f = false ∧ is2 fr f = false ∧ is3 fr f = false ∧ is4 fr f = true ∧ culled fr f = false ∧ ∃ c i, fr.zclip = some c ∧
      cols (behind c f) = [i] ∧ (f i).z < c ∧ c ≤ (f (i + 1)).z ∧ c ≤ (f (i + 2)).z ∧
      parts fr f = [((case4a (findVerts c fr.perspective f i)).1, some (case4a (findVerts c fr.perspective f i)).2),
        ((case4b (findVerts c fr.perspective f i)).1, some (case4b (findVerts c fr.perspective f i)).2)]) := by
  have hle := numBehind_le fr.zclip f
  rcases hcu : culled fr f with _ | _
  · obtain h | h | h | h : numBehind fr.zclip f = 0 ∨ numBehind fr.zclip f = 1 ∨ numBehind fr.zclip f = 2 ∨ numBehind fr.zclip f = 3 := by omega
    · left
      refine ⟨by simp [is1, h, hcu], by simp [is2, h, hcu], by simp [is3, h, hcu], by simp [is4, h, hcu], ?_, rfl, ?_⟩
      · simp [parts, is1, h, hcu]
      · intro c hc
        rw [hc] at h
        exact behind0 h
    · right; right; right
      refine ⟨by simp [is1, h, hcu], by simp [is2, h, hcu], by simp [is3, h, hcu], by simp [is4, h, hcu], rfl, ?_⟩
      cases hz : fr.zclip with
      | none => rw [hz] at h; simp [numBehind] at h
      | some c =>
        obtain ⟨i, hi, a, b, d⟩ := odd1 (hz ▸ h)
        refine ⟨c, i, rfl, hi, a, b, d, ?_⟩
        simp only [parts, is1, is3, is4, h, hcu, hz]
        rw [hz] at h
        simp [h, hi]
    · right; right; left
      refine ⟨by simp [is1, h, hcu], by simp [is2, h, hcu], by simp [is3, h, hcu], by simp [is4, h, hcu], rfl, ?_⟩
      cases hz : fr.zclip with
      | none => rw [hz] at h; simp [numBehind] at h
      | some c =>
        obtain ⟨i, hi, a, b, d⟩ := odd2 (hz ▸ h)
        refine ⟨c, i, rfl, hi, a, b, d, ?_⟩
        simp only [parts, is1, is3, is4, h, hcu, hz]
        rw [hz] at h
        simp [h, hi]
    · right; left
      refine ⟨by simp [is1, h, hcu], by simp [is2, h, hcu], by simp [is3, h, hcu], by simp [is4, h, hcu], ?_, ?_⟩
      · simp only [parts, is1, is3, is4, h, hcu]
        cases fr.zclip <;> simp
      · cases hz : fr.zclip with
        | none => rw [hz] at h; simp [numBehind] at h
        | some c => exact Or.inr ⟨c, rfl, behind3 (hz ▸ h)⟩
  · right; left
    refine ⟨by simp [is1, hcu], by simp [is2, hcu], by simp [is3, hcu], by simp [is4, hcu], ?_, Or.inl rfl⟩
    simp only [parts, is1, is3, is4, hcu]
    cases fr.zclip <;> simp

/-! ### Positions -/

/-- Position of the first clipped triangle of face `u`. -/
def start (fr : Frustum K) (fs : List (Tri K)) (u : Nat) : Nat :=
  ((List.range u).map fun s => (parts fr (row fs s)).length).sum

theorem start_zero (fr : Frustum K) (fs : List (Tri K)) : start fr fs 0 = 0 := rfl

theorem start_succ (fr : Frustum K) (fs : List (Tri K)) (u : Nat) :
    start fr fs (u + 1) = start fr fs u + (parts fr (row fs u)).length := by
  simp [start, List.range_succ]

theorem start_mono (fr : Frustum K) (fs : List (Tri K)) {u v : Nat} (h : u ≤ v) : start fr fs u ≤ start fr fs v := by
  induction v, h using Nat.le_induction with
  | base => exact le_rfl
  | succ v _ ih => rw [start_succ]; omega

theorem cell_exists (fr : Frustum K) (fs : List (Tri K)) : ∀ (n : Nat) {j : Nat}, j < start fr fs n →
    ∃ u s, u < n ∧ s < (parts fr (row fs u)).length ∧ j = start fr fs u + s
  | 0, j, h => by simp [start_zero] at h
  | n + 1, j, h => by
    rw [start_succ] at h
    by_cases hj : j < start fr fs n
    · obtain ⟨u, s, hu, hs, e⟩ := cell_exists fr fs n hj
      exact ⟨u, s, by omega, hs, e⟩
    · exact ⟨n, j - start fr fs n, by omega, by omega, by omega⟩

theorem cell_inj (fr : Frustum K) (fs : List (Tri K)) {u s u' s' : Nat}
    (hs : s < (parts fr (row fs u)).length) (hs' : s' < (parts fr (row fs u')).length)
    (h : start fr fs u + s = start fr fs u' + s') : u = u' ∧ s = s' := by
  have e := start_succ fr fs u
  have e' := start_succ fr fs u'
  rcases lt_trichotomy u u' with hlt | rfl | hlt
  · have := start_mono fr fs (Nat.succ_le_of_lt hlt); simp only [Nat.succ_eq_add_one] at this; omega
  · exact ⟨rfl, by omega⟩
  · have := start_mono fr fs (Nat.succ_le_of_lt hlt); simp only [Nat.succ_eq_add_one] at this; omega

theorem cell_lt (fr : Frustum K) (fs : List (Tri K)) {n u s : Nat} (hu : u < n)
    (hs : s < (parts fr (row fs u)).length) : start fr fs u + s < start fr fs n := by
  have e := start_succ fr fs u
  have := start_mono fr fs (Nat.succ_le_of_lt hu)
  simp only [Nat.succ_eq_add_one] at this
  omega

theorem delta_eq (fr : Frustum K) (f : Tri K) :
    1 + ((is4 fr f).toNat : Int) - ((is2 fr f).toNat : Int) = (parts fr f).length := by
  rcases parts_cases fr f with ⟨-, h2, -, h4, hp, -⟩ | ⟨-, h2, -, h4, hp, -⟩ | ⟨-, h2, -, h4, -, c, i, -, -, -, -, -, hp⟩ | ⟨-, h2, -, h4, -, c, i, -, -, -, -, -, hp⟩ <;>
    simp [h2, h4, hp]

theorem cumsum_get (l : List Int) {i : Nat} (h : i < l.length) : (cumsum l)[i]? = some (l.take (i + 1)).sum := by
  simp [cumsum, h]

theorem sum_take_delta (fr : Frustum K) (fs : List (Tri K)) {u : Nat} (hu : u ≤ fs.length) :
    ((fs.map fun f => 1 + ((is4 fr f).toNat : Int) - ((is2 fr f).toNat : Int)).take u).sum = (start fr fs u : Int) := by
  induction u with
  | zero => simp [start_zero]
  | succ u ih =>
    rw [List.take_add_one, List.sum_append, ih (by omega), start_succ]
    have : u < fs.length := by omega
    simp [this, delta_eq, row]

theorem offsets_get (fr : Frustum K) (fs : List (Tri K)) {u : Nat} (hu : u < fs.length) :
    (offsets fr fs)[u]? = some (start fr fs u : Int) := by
  unfold offsets
  rw [List.getElem?_zipWith, cumsum_get _ (by simpa using hu), sum_take_delta _ _ (by omega), start_succ]
  simp [hu, delta_eq, row]

theorem offsets_length (fr : Frustum K) (fs : List (Tri K)) : (offsets fr fs).length = fs.length := by
  simp [offsets, cumsum]

theorem offsets_getD (fr : Frustum K) (fs : List (Tri K)) {u : Nat} (hu : u < fs.length) :
    (offsets fr fs).getD u 0 = (start fr fs u : Int) := by
  rw [List.getD_eq_getElem?_getD, offsets_get fr fs hu]; rfl

theorem countClipped_eq (fr : Frustum K) (fs : List (Tri K)) : countClipped fr fs = (start fr fs fs.length : Int) := by
  have key : ∀ l : List Int, l ≠ [] → (List.zipWith (· - ·) (cumsum l) l).getLastD 0 + l.getLastD 0 = l.sum := by
    intro l hl
    have hlen : 0 < l.length := List.length_pos_iff.mpr hl
    rw [List.getLastD_eq_getLast?, List.getLastD_eq_getLast?, List.getLast?_eq_getElem?, List.getLast?_eq_getElem?, List.getElem?_zipWith]
    have e1 : (List.zipWith (· - ·) (cumsum l) l).length - 1 = l.length - 1 := by simp [cumsum]
    rw [e1, cumsum_get _ (by omega), Nat.sub_add_cancel hlen, List.take_length, List.getElem?_eq_getElem (by omega)]
    simp
  have hsum : (fs.map fun f => ((is4 fr f).toNat : Int) - ((is2 fr f).toNat : Int)).sum + fs.length = (start fr fs fs.length : Int) := by
    rw [← sum_take_delta fr fs le_rfl, List.take_of_length_le (by simp)]
    induction fs with
    | nil => rfl
    | cons f fs ih => simp only [List.map_cons, List.sum_cons, List.length_cons]; push_cast; linarith
  unfold countClipped
  by_cases h : fs = []
  · subst h; simp [start_zero, cumsum]
  · have := key (fs.map fun f => ((is4 fr f).toNat : Int) - ((is2 fr f).toNat : Int)) (by simpa using h)
    simp only
    linarith

theorem mem_nonzero {p : Tri K → Bool} {fs : List (Tri K)} {u : Nat} : u ∈ nonzero p fs ↔ u < fs.length ∧ p (row fs u) = true := by
  simp [nonzero]

theorem nodup_nonzero (p : Tri K → Bool) (fs : List (Tri K)) : (nonzero p fs).Nodup :=
  List.nodup_range.filter _

/-! ### The stores -/

/-- All clipped triangles: face, number within the face, triangle, matrix. -/
def flat (fr : Frustum K) (fs : List (Tri K)) (n : Nat) : List (Nat × Nat × Tri K × Option (Tri K)) :=
  (List.range n).flatMap fun u => (parts fr (row fs u)).mapIdx fun s p => (u, s, p)

theorem flat_length (fr : Frustum K) (fs : List (Tri K)) (n : Nat) : (flat fr fs n).length = start fr fs n := by
  simp [flat, start, List.length_flatMap]

theorem flat_succ (fr : Frustum K) (fs : List (Tri K)) (n : Nat) :
    flat fr fs (n + 1) = flat fr fs n ++ (parts fr (row fs n)).mapIdx fun s p => (n, s, p) := by
  simp [flat, List.range_succ]

theorem flat_get (fr : Frustum K) (fs : List (Tri K)) {n u s : Nat} {p : Tri K × Option (Tri K)} (hu : u < n)
    (hp : (parts fr (row fs u))[s]? = some p) : (flat fr fs n)[start fr fs u + s]? = some (u, s, p) := by
  have hs : s < (parts fr (row fs u)).length := (List.getElem?_eq_some_iff.mp hp).1
  induction n with
  | zero => omega
  | succ n ih =>
    rw [flat_succ]
    by_cases h : u < n
    · rw [List.getElem?_append_left (by rw [flat_length]; exact cell_lt fr fs h hs)]
      exact ih h
    · obtain rfl : u = n := by omega
      rw [List.getElem?_append_right (by rw [flat_length]; omega), flat_length, Nat.add_sub_cancel_left,
        List.getElem?_mapIdx, hp]
      rfl

/-- Every entry is one of those. -/
theorem flat_mem (fr : Frustum K) (fs : List (Tri K)) {n j : Nat} {e : Nat × Nat × Tri K × Option (Tri K)}
    (h : (flat fr fs n)[j]? = some e) : e.1 < n ∧ (parts fr (row fs e.1))[e.2.1]? = some e.2.2 ∧ j = start fr fs e.1 + e.2.1 := by
  have hj : j < start fr fs n := by rw [← flat_length]; exact (List.getElem?_eq_some_iff.mp h).1
  obtain ⟨u, s, hu, hs, rfl⟩ := cell_exists fr fs n hj
  rw [flat_get fr fs hu (List.getElem?_eq_getElem hs)] at h
  cases h
  exact ⟨hu, List.getElem?_eq_getElem hs, rfl⟩

section stores
variable {sh : ∀ α : Type, List α → List α} (hsh : ∀ α l, (sh α l).Perm l)
include hsh

theorem store_map {α β : Type} (v : Nat → α) (buf : List α) (us : List β) (g : β → Int) (h : β → α)
    (H : ∀ u ∈ us, (g u).toNat < buf.length ∧ h u = v (g u).toNat) :
    ∃ out, store sh buf (us.map g) (us.map h) = .ok out ∧ out.length = buf.length ∧
      (∀ u ∈ us, out[(g u).toNat]? = some (v (g u).toNat)) ∧
      (∀ k, buf[k]? = some (v k) → out[k]? = some (v k)) ∧
      (∀ k, (∀ u ∈ us, (g u).toNat ≠ k) → out[k]? = buf[k]?) := by
  have hz : ((us.map g).map Int.toNat).zip (us.map h) = us.map fun u => ((g u).toNat, h u) := by
    rw [List.map_map, List.zip_map', ]; rfl
  obtain ⟨out, h1, h2, h3⟩ := Marching.writeAll_fn (buf := buf) v (ws := sh _ (us.map fun u => ((g u).toNat, h u))) (by
    intro w hw
    obtain ⟨u, hu, rfl⟩ := List.mem_map.mp ((hsh _ _).mem_iff.mp hw)
    exact H u hu)
  have hk : ∀ k, k ∈ (sh _ (us.map fun u => ((g u).toNat, h u))).map Prod.fst ↔ ∃ u ∈ us, (g u).toNat = k := by
    intro k
    rw [((hsh _ _).map Prod.fst).mem_iff]
    simp
  refine ⟨out, by rw [store, hz, h1], h2, fun u hu => ?_, fun k hb => ?_, fun k hk' => ?_⟩
  · rw [h3, if_pos ((hk _).mpr ⟨u, hu, rfl⟩)]
  · rw [h3, hb, ite_self]
  · rw [h3, if_neg fun h => ?_]
    obtain ⟨u, hu, e⟩ := (hk _).mp h
    exact hk' u hu e

end stores

/-- The odd vertex of a face of case 3. -/
def odd3 (c : K) (f : Tri K) : Fin 3 := (cols fun k => !behind c f k).headD 0
/-- The odd vertex of a face of case 4. -/
def odd4 (c : K) (f : Tri K) : Fin 3 := (cols (behind c f)).headD 0

theorem parts3 {fr : Frustum K} {f : Tri K} {c : K} (hc : fr.zclip = some c) (h : is3 fr f = true) :
    (cols fun k => !behind c f k) = [odd3 c f] ∧
    parts fr f = [((case3 (findVerts c fr.perspective f (odd3 c f))).1, some (case3 (findVerts c fr.perspective f (odd3 c f))).2)] := by
  rcases parts_cases fr f with ⟨-, -, h3, -⟩ | ⟨-, -, h3, -⟩ | ⟨-, -, -, -, -, c', i, hc', hi, -, -, -, hp⟩ | ⟨-, -, h3, -⟩
  · simp [h] at h3
  · simp [h] at h3
  · rw [hc] at hc'
    cases hc'
    have : odd3 c f = i := by simp [odd3, hi]
    rw [this]
    exact ⟨hi, hp⟩
  · simp [h] at h3

theorem parts4 {fr : Frustum K} {f : Tri K} {c : K} (hc : fr.zclip = some c) (h : is4 fr f = true) :
    cols (behind c f) = [odd4 c f] ∧
    parts fr f = [((case4a (findVerts c fr.perspective f (odd4 c f))).1, some (case4a (findVerts c fr.perspective f (odd4 c f))).2),
      ((case4b (findVerts c fr.perspective f (odd4 c f))).1, some (case4b (findVerts c fr.perspective f (odd4 c f))).2)] := by
  rcases parts_cases fr f with ⟨-, -, -, h3, -⟩ | ⟨-, -, -, h3, -⟩ | ⟨-, -, -, h3, -⟩ | ⟨-, -, -, -, -, c', i, hc', hi, -, -, -, hp⟩
  · simp [h] at h3
  · simp [h] at h3
  · simp [h] at h3
  · rw [hc] at hc'
    cases hc'
    have : odd4 c f = i := by simp [odd4, hi]
    rw [this]
    exact ⟨hi, hp⟩

theorem parts1 {fr : Frustum K} {f : Tri K} (h : is1 fr f = true) : parts fr f = [(f, none)] := by
  simp [parts, h]

theorem zip_odd {β γ : Type} (us : List β) (g : β → Tri K) (o : β → List (Fin 3)) (o' : β → Fin 3) (q : Tri K → Fin 3 → γ)
    (h : ∀ u ∈ us, o u = [o' u]) : List.zipWith q (us.map g) (us.flatMap o) = us.map fun u => q (g u) (o' u) := by
  induction us with
  | nil => rfl
  | cons u us ih =>
    simp only [List.map_cons, List.flatMap_cons, h u (by simp), List.singleton_append, List.zipWith_cons_cons]
    rw [ih fun u hu => h u (by simp [hu])]

/-- The neighbour entry of a clipped triangle. -/
def nbOf (fr : Frustum K) (fs : List (Tri K)) (e : Nat × Nat × Tri K × Option (Tri K)) : Int :=
  if is4 fr (row fs e.1) then ((start fr fs e.1 + (1 - e.2.1) : Nat) : Int) else -1

/-- What `clip_faces` returns when something is clipped or culled. -/
structure Result (fr : Frustum K) (fs : List (Tri K)) (r : Clipped K) : Prop where
  verts : r.faceVerts = (flat fr fs fs.length).map fun e => e.2.2.1
  back : r.toUnclipped = some ((flat fr fs fs.length).map fun e => e.1)
  tables : (r.conv = none ∧ r.convIdx = none ∧ r.neighbor = none ∧ ∀ u < fs.length, is3 fr (row fs u) = false ∧ is4 fr (row fs u) = false) ∨
    ∃ conv ci nb, r.conv = some conv ∧ r.convIdx = some ci ∧ r.neighbor = some nb ∧
      ci.length = start fr fs fs.length ∧ nb.length = start fr fs fs.length ∧
      (∀ (j : Nat) (e : Nat × Nat × Tri K × Option (Tri K)), (flat fr fs fs.length)[j]? = some e →
        (e.2.2.2 = none ∧ ci[j]? = some (-1)) ∨ ∃ m, ∃ k : Nat, e.2.2.2 = some m ∧ ci[j]? = some (k : Int) ∧ conv[k]? = some m) ∧
      (∀ (j : Nat) (e : Nat × Nat × Tri K × Option (Tri K)), (flat fr fs fs.length)[j]? = some e → nb[j]? = some (nbOf fr fs e))

/-- The cells of the triangles that need conversion, in the order of `barycentric_conversion`. -/
def convCells (fr : Frustum K) (fs : List (Tri K)) : List (Nat × Nat) :=
  (nonzero (is3 fr) fs).map (fun u => (u, 0)) ++ (nonzero (is4 fr) fs).map (fun u => (u, 0)) ++ (nonzero (is4 fr) fs).map (fun u => (u, 1))

theorem is34 {fr : Frustum K} {f : Tri K} (h3 : is3 fr f = true) (h4 : is4 fr f = true) : False := by
  rcases parts_cases fr f with ⟨-, -, h, -⟩ | ⟨-, -, h, -⟩ | ⟨-, -, -, h, -⟩ | ⟨-, -, h, -⟩ <;> simp_all

theorem convCells_nodup (fr : Frustum K) (fs : List (Tri K)) : (convCells fr fs).Nodup := by
  unfold convCells
  rw [List.nodup_append, List.nodup_append]
  refine ⟨⟨(nodup_nonzero _ _).map fun a b h => (Prod.mk.inj h).1, (nodup_nonzero _ _).map fun a b h => (Prod.mk.inj h).1, ?_⟩,
    (nodup_nonzero _ _).map fun a b h => (Prod.mk.inj h).1, ?_⟩
  · intro a ha b hb e
    obtain ⟨u, hu, rfl⟩ := List.mem_map.mp ha
    obtain ⟨v, hv, rfl⟩ := List.mem_map.mp hb
    cases e
    exact is34 (mem_nonzero.mp hu).2 (mem_nonzero.mp hv).2
  · intro a ha b hb e
    obtain ⟨v, hv, rfl⟩ := List.mem_map.mp hb
    rcases List.mem_append.mp ha with h | h <;> obtain ⟨u, hu, rfl⟩ := List.mem_map.mp h <;> simp at e

theorem convCells_mem {fr : Frustum K} {fs : List (Tri K)} {c : K} (hc : fr.zclip = some c) {q : Nat × Nat} (h : q ∈ convCells fr fs) :
    q.1 < fs.length ∧ (is3 fr (row fs q.1) = true ∨ is4 fr (row fs q.1) = true) ∧ q.2 < (parts fr (row fs q.1)).length := by
  unfold convCells at h
  simp only [List.mem_append, List.mem_map, mem_nonzero] at h
  rcases h with (⟨u, ⟨hu, h3⟩, rfl⟩ | ⟨u, ⟨hu, h3⟩, rfl⟩) | ⟨u, ⟨hu, h3⟩, rfl⟩
  · exact ⟨hu, Or.inl h3, by simp [(parts3 hc h3).2]⟩
  · exact ⟨hu, Or.inr h3, by simp [(parts4 hc h3).2]⟩
  · exact ⟨hu, Or.inr h3, by simp [(parts4 hc h3).2]⟩

/-- Matrix of a cell. -/
def matOf (fr : Frustum K) (fs : List (Tri K)) (q : Nat × Nat) : Tri K :=
  (((parts fr (row fs q.1))[q.2]?).bind (·.2)).getD fun _ => 0

section stores
variable {sh : ∀ α : Type, List α → List α} (hsh : ∀ α l, (sh α l).Perm l)
include hsh

theorem clipRest_ok {fr : Frustum K} {c : K} (hc : fr.zclip = some c) {fs fv : List (Tri K)} {tu : List Nat} (first num : List Int)
    (hfv : fv.length = start fr fs fs.length) (htu : tu.length = start fr fs fs.length)
    (h1 : ∀ u < fs.length, is1 fr (row fs u) = true → fv[start fr fs u]? = some (row fs u) ∧ tu[start fr fs u]? = some u)  :
    ∃ r, clipRest sh fr c fs fv tu first num = .ok r ∧ r.firstIdx = first ∧ r.numFaces = num ∧ Result fr fs r := by
  set N := start fr fs fs.length with hN
  have hn : (countClipped fr fs).toNat = N := by rw [countClipped_eq]; simp [hN]
  have hq3 : List.zipWith (findVerts c fr.perspective) ((nonzero (is3 fr) fs).map (row fs))
      ((nonzero (is3 fr) fs).flatMap fun u => cols fun k => !behind c (row fs u) k) =
      (nonzero (is3 fr) fs).map fun u => findVerts c fr.perspective (row fs u) (odd3 c (row fs u)) :=
    zip_odd _ _ _ (fun u => odd3 c (row fs u)) _ fun u hu => (parts3 hc (mem_nonzero.mp hu).2).1
  have hq4 : List.zipWith (findVerts c fr.perspective) ((nonzero (is4 fr) fs).map (row fs))
      ((nonzero (is4 fr) fs).flatMap fun u => cols (behind c (row fs u))) =
      (nonzero (is4 fr) fs).map fun u => findVerts c fr.perspective (row fs u) (odd4 c (row fs u)) :=
    zip_odd _ _ _ (fun u => odd4 c (row fs u)) _ fun u hu => (parts4 hc (mem_nonzero.mp hu).2).1
  have hi : ∀ p : Tri K → Bool, (nonzero p fs).map (fun u => (offsets fr fs).getD u 0) = (nonzero p fs).map fun u => (start fr fs u : Int) :=
    fun p => List.map_congr_left fun u hu => offsets_getD fr fs (mem_nonzero.mp hu).1
  have hi4' : ((nonzero (is4 fr) fs).map fun u => (start fr fs u : Int)).map (· + 1) =
      (nonzero (is4 fr) fs).map fun u => ((start fr fs u + 1 : Nat) : Int) := by
    rw [List.map_map]; apply List.map_congr_left; intro u _; simp
  -- values
  let d : Nat × Nat × Tri K × Option (Tri K) := (0, 0, fun _ => 0, none)
  let E := fun j : Nat => ((flat fr fs fs.length)[j]?).getD d
  have hE : ∀ {u s p}, u < fs.length → (parts fr (row fs u))[s]? = some p → E (start fr fs u + s) = (u, s, p) := by
    intro u s p hu hp
    simp only [E, flat_get fr fs hu hp, Option.getD_some]
  have a3 : ∀ u ∈ nonzero (is3 fr) fs, start fr fs u < N ∧ E (start fr fs u) =
      (u, 0, ((case3 (findVerts c fr.perspective (row fs u) (odd3 c (row fs u)))).1, some (case3 (findVerts c fr.perspective (row fs u) (odd3 c (row fs u)))).2)) := by
    intro u hu
    obtain ⟨hu, h3⟩ := mem_nonzero.mp hu
    have hp := (parts3 hc h3).2
    exact ⟨cell_lt fr fs hu (s := 0) (by simp [hp]), hE hu (s := 0) (by simp [hp])⟩
  have a4 : ∀ u ∈ nonzero (is4 fr) fs, start fr fs u < N ∧ E (start fr fs u) =
      (u, 0, ((case4a (findVerts c fr.perspective (row fs u) (odd4 c (row fs u)))).1, some (case4a (findVerts c fr.perspective (row fs u) (odd4 c (row fs u)))).2)) := by
    intro u hu
    obtain ⟨hu, h3⟩ := mem_nonzero.mp hu
    have hp := (parts4 hc h3).2
    exact ⟨cell_lt fr fs hu (s := 0) (by simp [hp]), hE hu (s := 0) (by simp [hp])⟩
  have b4 : ∀ u ∈ nonzero (is4 fr) fs, start fr fs u + 1 < N ∧ E (start fr fs u + 1) =
      (u, 1, ((case4b (findVerts c fr.perspective (row fs u) (odd4 c (row fs u)))).1, some (case4b (findVerts c fr.perspective (row fs u) (odd4 c (row fs u)))).2)) := by
    intro u hu
    obtain ⟨hu, h3⟩ := mem_nonzero.mp hu
    have hp := (parts4 hc h3).2
    exact ⟨cell_lt fr fs hu (s := 1) (by simp [hp]), hE hu (s := 1) (by simp [hp])⟩
  -- face_verts
  obtain ⟨fv3, e3, l3, v3, k3, -⟩ := store_map hsh (fun j => (E j).2.2.1) fv (nonzero (is3 fr) fs) (fun u => (start fr fs u : Int))
    (fun u => (case3 (findVerts c fr.perspective (row fs u) (odd3 c (row fs u)))).1) (fun u hu => by
      obtain ⟨x, y⟩ := a3 u hu
      simp only [Int.toNat_natCast, hfv, y]; exact ⟨x, trivial⟩)
  obtain ⟨fv4, e4, l4, v4, k4, -⟩ := store_map hsh (fun j => (E j).2.2.1) fv3 (nonzero (is4 fr) fs) (fun u => (start fr fs u : Int))
    (fun u => (case4a (findVerts c fr.perspective (row fs u) (odd4 c (row fs u)))).1) (fun u hu => by
      obtain ⟨x, y⟩ := a4 u hu
      simp only [Int.toNat_natCast, l3, hfv, y]; exact ⟨x, trivial⟩)
  obtain ⟨fv5, e5, l5, v5, k5, -⟩ := store_map hsh (fun j => (E j).2.2.1) fv4 (nonzero (is4 fr) fs) (fun u => ((start fr fs u + 1 : Nat) : Int))
    (fun u => (case4b (findVerts c fr.perspective (row fs u) (odd4 c (row fs u)))).1) (fun u hu => by
      obtain ⟨x, y⟩ := b4 u hu
      simp only [Int.toNat_natCast, l4, l3, hfv, y]; exact ⟨x, trivial⟩)
  -- faces_clipped_to_unclipped_idx
  obtain ⟨tu3, te3, tl3, tv3, tk3, -⟩ := store_map hsh (fun j => (E j).1) tu (nonzero (is3 fr) fs) (fun u => (start fr fs u : Int)) (fun u => u) (fun u hu => by
      obtain ⟨x, y⟩ := a3 u hu
      simp only [Int.toNat_natCast, htu, y]; exact ⟨x, trivial⟩)
  obtain ⟨tu4, te4, tl4, tv4, tk4, -⟩ := store_map hsh (fun j => (E j).1) tu3 (nonzero (is4 fr) fs) (fun u => (start fr fs u : Int)) (fun u => u) (fun u hu => by
      obtain ⟨x, y⟩ := a4 u hu
      simp only [Int.toNat_natCast, tl3, htu, y]; exact ⟨x, trivial⟩)
  obtain ⟨tu5, te5, tl5, tv5, tk5, -⟩ := store_map hsh (fun j => (E j).1) tu4 (nonzero (is4 fr) fs) (fun u => ((start fr fs u + 1 : Nat) : Int)) (fun u => u) (fun u hu => by
      obtain ⟨x, y⟩ := b4 u hu
      simp only [Int.toNat_natCast, tl4, tl3, htu, y]; exact ⟨x, trivial⟩)
  -- neighbours
  have nb4 : ∀ u ∈ nonzero (is4 fr) fs, nbOf fr fs (E (start fr fs u)) = ((start fr fs u + 1 : Nat) : Int) ∧
      nbOf fr fs (E (start fr fs u + 1)) = (start fr fs u : Int) := by
    intro u hu
    rw [(a4 u hu).2, (b4 u hu).2]
    simp [nbOf, (mem_nonzero.mp hu).2]
  obtain ⟨nb, ne, nl, nv, nk, no⟩ := store_map hsh (fun j => nbOf fr fs (E j)) (List.replicate N (-1 : Int)) (nonzero (is4 fr) fs)
    (fun u => (start fr fs u : Int)) (fun u => ((start fr fs u + 1 : Nat) : Int)) (fun u hu => by
      simp only [Int.toNat_natCast, List.length_replicate, (nb4 u hu).1]; exact ⟨(a4 u hu).1, trivial⟩)
  obtain ⟨nb', ne', nl', nv', nk', no'⟩ := store_map hsh (fun j => nbOf fr fs (E j)) nb (nonzero (is4 fr) fs)
    (fun u => ((start fr fs u + 1 : Nat) : Int)) (fun u => (start fr fs u : Int)) (fun u hu => by
      simp only [Int.toNat_natCast, List.length_replicate, nl, (nb4 u hu).2]; exact ⟨(b4 u hu).1, trivial⟩)
  -- conversion indices
  set cs := convCells fr fs with hcs
  have hidx : (nonzero (is3 fr) fs).map (fun u => (start fr fs u : Int)) ++ (nonzero (is4 fr) fs).map (fun u => (start fr fs u : Int))
      ++ (nonzero (is4 fr) fs).map (fun u => ((start fr fs u + 1 : Nat) : Int)) = cs.map fun q => ((start fr fs q.1 + q.2 : Nat) : Int) := by
    simp [hcs, convCells, List.map_append, List.map_map, Function.comp_def]
  have hconv : (nonzero (is3 fr) fs).map (fun u => (case3 (findVerts c fr.perspective (row fs u) (odd3 c (row fs u)))).2)
      ++ (nonzero (is4 fr) fs).map (fun u => (case4a (findVerts c fr.perspective (row fs u) (odd4 c (row fs u)))).2)
      ++ (nonzero (is4 fr) fs).map (fun u => (case4b (findVerts c fr.perspective (row fs u) (odd4 c (row fs u)))).2) = cs.map (matOf fr fs) := by
    simp only [hcs, convCells, List.map_append, List.map_map]
    congr 1
    congr 1
    · apply List.map_congr_left; intro u hu
      simp [matOf, (parts3 hc (mem_nonzero.mp hu).2).2]
    · apply List.map_congr_left; intro u hu
      simp [matOf, (parts4 hc (mem_nonzero.mp hu).2).2]
    · apply List.map_congr_left; intro u hu
      simp [matOf, (parts4 hc (mem_nonzero.mp hu).2).2]
  have hcnd := convCells_nodup fr fs
  rw [← hcs] at hcnd
  have hkey : ∀ q ∈ cs, ∀ q' ∈ cs, start fr fs q.1 + q.2 = start fr fs q'.1 + q'.2 → q = q' := by
    intro q hq q' hq' e
    obtain ⟨-, -, x⟩ := convCells_mem hc hq
    obtain ⟨-, -, y⟩ := convCells_mem hc hq'
    obtain ⟨i, j⟩ := cell_inj fr fs x y e
    exact Prod.ext i j
  have hpos : ∀ k : Nat, ∀ hk : k < cs.length, ((cs.map fun q => start fr fs q.1 + q.2).idxOf (start fr fs (cs[k]).1 + (cs[k]).2)) = k := by
    intro k hk
    have hnd : (cs.map fun q => start fr fs q.1 + q.2).Nodup := hcnd.map_on hkey
    have := List.Nodup.idxOf_getElem hnd k (by simpa using hk)
    simpa using this
  obtain ⟨ci, ce, cl, cv, -, co⟩ := store_map hsh (fun j => ((cs.map fun q => start fr fs q.1 + q.2).idxOf j : Int)) (List.replicate N (-1 : Int))
    (List.range cs.length) (fun k => (cs.map fun q => ((start fr fs q.1 + q.2 : Nat) : Int)).getD k 0) (fun k => (k : Int)) (fun k hk => by
      have hk := List.mem_range.mp hk
      have e : (cs.map fun q => ((start fr fs q.1 + q.2 : Nat) : Int)).getD k 0 = ((start fr fs (cs[k]).1 + (cs[k]).2 : Nat) : Int) := by
        rw [List.getD_eq_getElem?_getD, List.getElem?_map, List.getElem?_eq_getElem hk]; rfl
      rw [e, Int.toNat_natCast, List.length_replicate, hpos k hk]
      obtain ⟨x, -, y⟩ := convCells_mem hc (List.getElem_mem hk)
      exact ⟨cell_lt fr fs x y, rfl⟩)
  have hrng : (List.range cs.length).map (fun k => (cs.map fun q => ((start fr fs q.1 + q.2 : Nat) : Int)).getD k 0) =
      cs.map fun q => ((start fr fs q.1 + q.2 : Nat) : Int) := by
    apply List.ext_getElem (by simp)
    intro k h1 h2
    simp only [List.length_map] at h2
    rw [List.getElem_map, List.getElem_range, List.getD_eq_getElem?_getD, List.getElem?_map, List.getElem?_eq_getElem h2]
    simp
  rw [hrng] at ce
  simp only [List.length_replicate] at cl nl
  have hmapid : ∀ l : List Nat, l.map (fun u => u) = l := fun l => List.map_id l
  rw [hmapid] at te3 te4 te5
  refine ⟨⟨fv5, first, num, some tu5, some (cs.map (matOf fr fs)), some ci, some nb'⟩, ?_, rfl, rfl, ?_⟩
  · unfold clipRest
    simp only [hq3, hq4, hi, hi4', hn, List.map_map, Function.comp_def, hidx, hconv, List.length_map]
    simp only [bind, Except.bind, e3, te3, e4, e5, te4, te5, ce, ne, ne']
  · have hall : ∀ u s p, u < fs.length → (parts fr (row fs u))[s]? = some p →
        fv5[start fr fs u + s]? = some p.1 ∧ tu5[start fr fs u + s]? = some u := by
      intro u s p hu hp
      have hEj := hE hu hp
      have hs : s < (parts fr (row fs u)).length := (List.getElem?_eq_some_iff.mp hp).1
      suffices fv5[start fr fs u + s]? = some (E (start fr fs u + s)).2.2.1 ∧ tu5[start fr fs u + s]? = some (E (start fr fs u + s)).1 by
        rw [hEj] at this; exact this
      rcases parts_cases fr (row fs u) with ⟨c1, -, -, -, hp', -⟩ | ⟨-, -, -, -, hp', -⟩ | ⟨-, -, c3, -, -, _, _, -, -, -, -, -, hp'⟩ | ⟨-, -, -, c4, -, _, _, -, -, -, -, -, hp'⟩
      · rw [hp'] at hp hs
        obtain rfl : s = 0 := by simpa using hs
        simp only [List.getElem?_cons_zero, Option.some.injEq] at hp
        obtain ⟨x, y⟩ := h1 u hu c1
        refine ⟨k5 _ (k4 _ (k3 _ ?_)), tk5 _ (tk4 _ (tk3 _ ?_))⟩
        · rw [hEj, ← hp]; exact x
        · rw [hEj]; exact y
      · rw [hp'] at hp; simp at hp
      · rw [hp'] at hs
        obtain rfl : s = 0 := by simpa using hs
        have hm := mem_nonzero.mpr ⟨hu, c3⟩
        have x := v3 u hm
        have y := tv3 u hm
        simp only [Int.toNat_natCast] at x y
        exact ⟨k5 _ (k4 _ x), tk5 _ (tk4 _ y)⟩
      · rw [hp'] at hs
        have hm := mem_nonzero.mpr ⟨hu, c4⟩
        obtain rfl | rfl : s = 0 ∨ s = 1 := by simp at hs; omega
        · have x := v4 u hm
          have y := tv4 u hm
          simp only [Int.toNat_natCast] at x y
          exact ⟨k5 _ x, tk5 _ y⟩
        · have x := v5 u hm
          have y := tv5 u hm
          simp only [Int.toNat_natCast] at x y
          exact ⟨x, y⟩
    refine ⟨?_, ?_, Or.inr ⟨_, ci, nb', rfl, rfl, rfl, cl, by simpa [nl] using nl', ?_, ?_⟩⟩
    · apply List.ext_getElem?
      intro j
      by_cases hj : j < N
      · obtain ⟨u, s, hu, hs, rfl⟩ := cell_exists fr fs fs.length hj
        have hp := List.getElem?_eq_getElem hs
        rw [(hall u s _ hu hp).1, List.getElem?_map, flat_get fr fs hu hp]; rfl
      · rw [List.getElem?_eq_none (by simp only [l5, l4, l3, hfv]; omega), List.getElem?_eq_none (by rw [List.length_map, flat_length]; omega)]
    · simp only [Option.some.injEq]
      apply List.ext_getElem?
      intro j
      by_cases hj : j < N
      · obtain ⟨u, s, hu, hs, rfl⟩ := cell_exists fr fs fs.length hj
        have hp := List.getElem?_eq_getElem hs
        rw [(hall u s _ hu hp).2, List.getElem?_map, flat_get fr fs hu hp]; rfl
      · rw [List.getElem?_eq_none (by simp only [tl5, tl4, tl3, htu]; omega), List.getElem?_eq_none (by rw [List.length_map, flat_length]; omega)]
    · intro j e he
      obtain ⟨hu, hp, rfl⟩ := flat_mem fr fs he
      obtain ⟨u, s, p⟩ := e
      simp only at hu hp ⊢
      have hs : s < (parts fr (row fs u)).length := (List.getElem?_eq_some_iff.mp hp).1
      have hjN := cell_lt fr fs hu hs
      by_cases hmem : (u, s) ∈ cs
      · right
        obtain ⟨k, hk, hek⟩ := List.getElem_of_mem hmem
        have hx := cv k (List.mem_range.mpr hk)
        have e : (cs.map fun q => ((start fr fs q.1 + q.2 : Nat) : Int)).getD k 0 = ((start fr fs u + s : Nat) : Int) := by
          rw [List.getD_eq_getElem?_getD, List.getElem?_map, List.getElem?_eq_getElem hk, hek]; rfl
        have hpk := hpos k hk
        rw [hek] at hpk
        simp only [e, Int.toNat_natCast, hpk] at hx
        have hm : ∃ m, p.2 = some m := by
          obtain ⟨-, h34, -⟩ := convCells_mem hc hmem
          rcases h34 with h | h
          · rw [(parts3 hc h).2] at hp hs
            obtain rfl : s = 0 := by simpa using hs
            simp only [List.getElem?_cons_zero, Option.some.injEq] at hp
            exact ⟨_, by rw [← hp]⟩
          · rw [(parts4 hc h).2] at hp hs
            obtain rfl | rfl : s = 0 ∨ s = 1 := by simp at hs; omega
            · simp only [List.getElem?_cons_zero, Option.some.injEq] at hp
              exact ⟨_, by rw [← hp]⟩
            · simp only [List.getElem?_cons_succ, List.getElem?_cons_zero, Option.some.injEq] at hp
              exact ⟨_, by rw [← hp]⟩
        obtain ⟨m, hm⟩ := hm
        refine ⟨m, k, hm, hx, ?_⟩
        rw [List.getElem?_map, List.getElem?_eq_getElem hk, hek]
        simp [matOf, hp, hm]
      · left
        constructor
        · rcases parts_cases fr (row fs u) with ⟨c1, -, -, -, hp', -⟩ | ⟨-, -, -, -, hp', -⟩ | ⟨-, -, c3, -, -, _, _, -, -, -, -, -, hp'⟩ | ⟨-, -, -, c4, -, _, _, -, -, -, -, -, hp'⟩
          · rw [hp'] at hp hs
            obtain rfl : s = 0 := by simpa using hs
            simp only [List.getElem?_cons_zero, Option.some.injEq] at hp
            rw [← hp]
          · rw [hp'] at hp; simp at hp
          · exfalso
            rw [hp'] at hs
            obtain rfl : s = 0 := by simpa using hs
            exact hmem (by simp [hcs, convCells, mem_nonzero, hu, c3])
          · exfalso
            rw [hp'] at hs
            obtain rfl | rfl : s = 0 ∨ s = 1 := by simp at hs; omega
            · exact hmem (by simp [hcs, convCells, mem_nonzero, hu, c4])
            · exact hmem (by simp [hcs, convCells, mem_nonzero, hu, c4])
        · rw [co]
          · simp [hjN, hN]
          · intro k hk e
            have hk := List.mem_range.mp hk
            rw [List.getD_eq_getElem?_getD, List.getElem?_map, List.getElem?_eq_getElem hk] at e
            simp only [Option.map_some, Option.getD_some, Int.toNat_natCast] at e
            obtain ⟨-, -, y⟩ := convCells_mem hc (List.getElem_mem hk)
            obtain ⟨i, j⟩ := cell_inj fr fs y hs e
            apply hmem
            have : cs[k] = (u, s) := Prod.ext i j
            rw [← this]; exact List.getElem_mem hk
    · intro j e he
      obtain ⟨hu, hp, rfl⟩ := flat_mem fr fs he
      have hs := (List.getElem?_eq_some_iff.mp hp).1
      have hEj : E (start fr fs e.1 + e.2.1) = e := hE hu hp
      by_cases h4 : is4 fr (row fs e.1) = true
      · have hm := mem_nonzero.mpr ⟨hu, h4⟩
        have hs' := hs
        rw [(parts4 hc h4).2] at hs'
        suffices nb'[start fr fs e.1 + e.2.1]? = some (nbOf fr fs (E (start fr fs e.1 + e.2.1))) by rwa [hEj] at this
        obtain h | h : e.2.1 = 0 ∨ e.2.1 = 1 := by simp at hs'; omega
        · rw [h]; have := nv e.1 hm; simp only [Int.toNat_natCast] at this; exact nk' _ this
        · rw [h]; have := nv' e.1 hm; simp only [Int.toNat_natCast] at this; exact this
      · have hno : ∀ u ∈ nonzero (is4 fr) fs, start fr fs u ≠ start fr fs e.1 + e.2.1 ∧ start fr fs u + 1 ≠ start fr fs e.1 + e.2.1 := by
          intro u hm
          have h4' := (mem_nonzero.mp hm).2
          have hl := (parts4 hc h4').2
          constructor <;> intro h
          · have := (cell_inj fr fs (u := u) (s := 0) (by simp [hl]) hs h).1
            subst this; exact h4 h4'
          · have := (cell_inj fr fs (u := u) (s := 1) (by simp [hl]) hs h).1
            subst this; exact h4 h4'
        rw [no' _ fun u hm => by simpa using (hno u hm).2, no _ fun u hm => by simpa using (hno u hm).1]
        simp [nbOf, h4, cell_lt fr fs hu hs, hN]

/-- `Meshes.mesh_to_faces_packed_first_idx`, from the numbers of faces. -/
def firsts (num : List Nat) : List Int := (List.range num.length).map fun m => (((num.take m).sum : Nat) : Int)

omit hsh in
theorem quiet_iff (fr : Frustum K) (fs : List (Tri K)) :
    ((fs.map (numBehind fr.zclip)).sum = 0 ∧ (fs.map fun f => (culled fr f).toNat).sum = 0) ↔
      ∀ u < fs.length, is1 fr (row fs u) = true := by
  have h : ∀ b : Bool, (b.toNat = 0 ↔ b = false) := by decide
  rw [List.sum_eq_zero_iff, List.sum_eq_zero_iff]
  simp only [List.mem_map, forall_exists_index, and_imp, forall_apply_eq_imp_iff₂, h]
  constructor
  · rintro ⟨a, b⟩ u hu
    have hm : row fs u ∈ fs := by simp [row, hu]
    simp [is1, a _ hm, b _ hm]
  · intro H
    have : ∀ f ∈ fs, numBehind fr.zclip f = 0 ∧ culled fr f = false := by
      intro f hf
      obtain ⟨u, hu, rfl⟩ := List.getElem_of_mem hf
      have := H u hu
      simpa [is1, row, hu] using this
    exact ⟨fun f hf => (this f hf).1, fun f hf => (this f hf).2⟩

omit hsh in
theorem start_quiet {fr : Frustum K} {fs : List (Tri K)} (h : ∀ u < fs.length, is1 fr (row fs u) = true) :
    ∀ u ≤ fs.length, start fr fs u = u
  | 0, _ => rfl
  | u + 1, hu => by rw [start_succ, start_quiet h u (by omega), parts1 (h u hu)]; rfl

omit hsh in
theorem mapM_get (off : List Int) : ∀ first : List Int,
    (first.mapM fun i => off[i.toNat]?) = if ∀ i ∈ first, i.toNat < off.length then some (first.map fun i => off.getD i.toNat 0) else none
  | [] => by simp
  | i :: first => by
    rw [List.mapM_cons, mapM_get off first]
    by_cases hi : i.toNat < off.length
    · by_cases hr : ∀ i ∈ first, i.toNat < off.length
      · rw [if_pos hr, if_pos (by simpa using ⟨hi, hr⟩), List.getElem?_eq_getElem hi]
        simp [hi]
      · rw [if_neg hr, if_neg (fun h => hr fun i hi => h i (by simp [hi])), List.getElem?_eq_getElem hi]
        rfl
    · rw [if_neg (c := ∀ j ∈ i :: first, j.toNat < off.length) (fun h => hi (h i (by simp))), List.getElem?_eq_none (by omega)]
      rfl

/-- `clip_faces` when something is clipped or culled. -/
theorem clipFaces_ok {fr : Frustum K} {fs : List (Tri K)} (h : ¬ ∀ u < fs.length, is1 fr (row fs u) = true) (first num : List Int)
    (hf : ∀ i ∈ first, i.toNat < fs.length) :
    ∃ r, clipFaces sh fr fs first num = .ok r ∧ r.firstIdx = first.map (fun i => (start fr fs i.toNat : Int)) ∧
      r.numFaces = List.zipWith (· - ·) (r.firstIdx.tail ++ [(start fr fs fs.length : Int)]) r.firstIdx ∧ Result fr fs r := by
  have hq := mt (quiet_iff fr fs).mp h
  unfold clipFaces
  rw [if_neg hq]
  simp only
  rw [mapM_get, if_pos (by rw [offsets_length]; exact hf)]
  simp only
  have hfirst : (first.map fun i => (offsets fr fs).getD i.toNat 0) = first.map fun i => (start fr fs i.toNat : Int) :=
    List.map_congr_left fun i hi => offsets_getD fr fs (hf i hi)
  rw [hfirst, countClipped_eq]
  set first' := first.map fun i => (start fr fs i.toNat : Int)
  have hi : (nonzero (is1 fr) fs).map (fun u => (offsets fr fs).getD u 0) = (nonzero (is1 fr) fs).map fun u => (start fr fs u : Int) :=
    List.map_congr_left fun u hu => offsets_getD fr fs (mem_nonzero.mp hu).1
  rw [hi]
  let d : Nat × Nat × Tri K × Option (Tri K) := (0, 0, fun _ => 0, none)
  let E := fun j : Nat => ((flat fr fs fs.length)[j]?).getD d
  have a1 : ∀ u ∈ nonzero (is1 fr) fs, start fr fs u < start fr fs fs.length ∧ E (start fr fs u) = (u, 0, row fs u, none) := by
    intro u hu
    obtain ⟨hu, h1⟩ := mem_nonzero.mp hu
    have hp := parts1 h1
    refine ⟨cell_lt fr fs hu (s := 0) (by simp [hp]), ?_⟩
    have := flat_get fr fs (s := 0) (p := (row fs u, none)) hu (by simp [hp])
    rw [Nat.add_zero] at this
    simp only [E, this, Option.getD_some]
  obtain ⟨fv, e1, l1, v1, -, -⟩ := store_map hsh (fun j => (E j).2.2.1) (List.replicate (Int.toNat (start fr fs fs.length : Int)) fun _ => (0 : V3 K)) (nonzero (is1 fr) fs)
    (fun u => (start fr fs u : Int)) (row fs) (fun u hu => by
      obtain ⟨x, y⟩ := a1 u hu
      simp only [Int.toNat_natCast, List.length_replicate, y]; exact ⟨x, trivial⟩)
  obtain ⟨tu, te1, tl1, tv1, -, -⟩ := store_map hsh (fun j => (E j).1) (List.replicate (Int.toNat (start fr fs fs.length : Int)) 0) (nonzero (is1 fr) fs)
    (fun u => (start fr fs u : Int)) (fun u => u) (fun u hu => by
      obtain ⟨x, y⟩ := a1 u hu
      simp only [Int.toNat_natCast, List.length_replicate, y]; exact ⟨x, trivial⟩)
  have hmapid : ∀ l : List Nat, l.map (fun u => u) = l := fun l => List.map_id l
  rw [hmapid] at te1
  simp only [Int.toNat_natCast, List.length_replicate] at e1 te1 l1 tl1
  simp only [Int.toNat_natCast, bind, Except.bind, e1, te1]
  have h1 : ∀ u < fs.length, is1 fr (row fs u) = true → fv[start fr fs u]? = some (row fs u) ∧ tu[start fr fs u]? = some u := by
    intro u hu h1
    have hm := mem_nonzero.mpr ⟨hu, h1⟩
    have x := v1 u hm
    have y := tv1 u hm
    simp only [Int.toNat_natCast, (a1 u hm).2] at x y
    exact ⟨x, y⟩
  by_cases h34 : (nonzero (is3 fr) fs).length + (nonzero (is4 fr) fs).length = 0
  · rw [if_pos h34]
    have h3 : nonzero (is3 fr) fs = [] := List.eq_nil_of_length_eq_zero (by omega)
    have h4 : nonzero (is4 fr) fs = [] := List.eq_nil_of_length_eq_zero (by omega)
    have no34 : ∀ u < fs.length, is3 fr (row fs u) = false ∧ is4 fr (row fs u) = false := by
      intro u hu
      constructor
      · by_contra h
        have : u ∈ nonzero (is3 fr) fs := mem_nonzero.mpr ⟨hu, by simpa using h⟩
        rw [h3] at this; simp at this
      · by_contra h
        have : u ∈ nonzero (is4 fr) fs := mem_nonzero.mpr ⟨hu, by simpa using h⟩
        rw [h4] at this; simp at this
    have hall : ∀ u s p, u < fs.length → (parts fr (row fs u))[s]? = some p →
        fv[start fr fs u + s]? = some p.1 ∧ tu[start fr fs u + s]? = some u := by
      intro u s p hu hp
      have hs : s < (parts fr (row fs u)).length := (List.getElem?_eq_some_iff.mp hp).1
      rcases parts_cases fr (row fs u) with ⟨c1, -, -, -, hp', -⟩ | ⟨-, -, -, -, hp', -⟩ | ⟨-, -, c3, -⟩ | ⟨-, -, -, c4, -⟩
      · rw [hp'] at hp hs
        obtain rfl : s = 0 := by simpa using hs
        simp only [List.getElem?_cons_zero, Option.some.injEq] at hp
        rw [← hp]
        exact h1 u hu c1
      · rw [hp'] at hp; simp at hp
      · rw [(no34 u hu).1] at c3; simp at c3
      · rw [(no34 u hu).2] at c4; simp at c4
    refine ⟨_, rfl, rfl, rfl, ?_, ?_, Or.inl ⟨rfl, rfl, rfl, no34⟩⟩
    · apply List.ext_getElem?
      intro j
      by_cases hj : j < start fr fs fs.length
      · obtain ⟨u, s, hu, hs, rfl⟩ := cell_exists fr fs fs.length hj
        have hp := List.getElem?_eq_getElem hs
        simp only
        rw [(hall u s _ hu hp).1, List.getElem?_map, flat_get fr fs hu hp]; rfl
      · rw [List.getElem?_eq_none (by simp only [l1]; omega), List.getElem?_eq_none (by rw [List.length_map, flat_length]; omega)]
    · simp only [Option.some.injEq]
      apply List.ext_getElem?
      intro j
      by_cases hj : j < start fr fs fs.length
      · obtain ⟨u, s, hu, hs, rfl⟩ := cell_exists fr fs fs.length hj
        have hp := List.getElem?_eq_getElem hs
        rw [(hall u s _ hu hp).2, List.getElem?_map, flat_get fr fs hu hp]; rfl
      · rw [List.getElem?_eq_none (by simp only [tl1]; omega), List.getElem?_eq_none (by rw [List.length_map, flat_length]; omega)]
  · rw [if_neg h34]
    have hz : ∃ c, fr.zclip = some c := by
      cases hz : fr.zclip with
      | some c => exact ⟨c, rfl⟩
      | none =>
        exfalso
        apply h34
        have h3 : nonzero (is3 fr) fs = [] := List.eq_nil_iff_forall_not_mem.mpr fun u hu => by
          have := (mem_nonzero.mp hu).2; simp [is3, numBehind, hz] at this
        have h4 : nonzero (is4 fr) fs = [] := List.eq_nil_iff_forall_not_mem.mpr fun u hu => by
          have := (mem_nonzero.mp hu).2; simp [is4, numBehind, hz] at this
        simp [h3, h4]
    obtain ⟨c, hc⟩ := hz
    rw [hc]
    simp only
    obtain ⟨r, hr, hr1, hr2, hr3⟩ := clipRest_ok hsh hc first' (List.zipWith (· - ·) (first'.tail ++ [(start fr fs fs.length : Int)]) first') l1 tl1 h1
    exact ⟨r, hr, hr1, by rw [hr2, hr1], hr3⟩

omit hsh in
/-- Converting a fragment of clipped triangle `j`. -/
theorem Result.convert {fr : Frustum K} {fs : List (Tri K)} {r : Clipped K} (h : Result fr fs r) {j : Nat}
    {e : Nat × Nat × Tri K × Option (Tri K)} (he : (flat fr fs fs.length)[j]? = some e) (w : V3 K) :
    Clip.convert r j w = some ((e.1 : Int), interp (e.2.2.2.getD one) w) := by
  have hj : j < (flat fr fs fs.length).length := (List.getElem?_eq_some_iff.mp he).1
  have hg : ∀ {α : Type} (l : List α), pyGet l (j : Int) = l[j]? := by
    intro α l
    unfold pyGet
    rw [if_neg (by omega)]; simp
  have hne : ((j : Nat) : Int) ≠ -1 := by omega
  unfold Clip.convert
  rw [h.back]
  simp only
  rw [if_neg (by rw [List.length_map]; omega), hg, List.getElem?_map, he]
  simp only [Option.map_some, bind, Option.bind_some, ne_eq, hne, not_false_eq_true, if_true, hg]
  rcases h.tables with ⟨h1, h2, -, h34⟩ | ⟨conv, ci, nb, h1, h2, -, -, -, hci, -⟩
  · rw [h1, h2]
    simp only
    obtain ⟨hu, hp, -⟩ := flat_mem fr fs he
    have : e.2.2.2 = none := by
      rcases parts_cases fr (row fs e.1) with ⟨c1, -, -, -, hp', -⟩ | ⟨-, -, -, -, hp', -⟩ | ⟨-, -, c3, -⟩ | ⟨-, -, -, c4, -⟩
      · rw [hp'] at hp
        have hs := (List.getElem?_eq_some_iff.mp hp).1
        have : e.2.1 = 0 := by simpa using hs
        rw [this] at hp
        simp only [List.getElem?_cons_zero, Option.some.injEq] at hp
        rw [← hp]
      · rw [hp'] at hp; simp at hp
      · rw [(h34 _ hu).1] at c3; simp at c3
      · rw [(h34 _ hu).2] at c4; simp at c4
    rw [this, Option.getD_none, interp_one]
  · rw [h1, h2]
    simp only
    rcases hci j e he with ⟨a, b⟩ | ⟨m, k, a, b, d⟩
    · rw [b, a]; simp [interp_one]
    · rw [b, a]
      have hk : ((k : Nat) : Int) ≠ -1 := by omega
      have hgk : pyGet conv (k : Int) = conv[k]? := by unfold pyGet; rw [if_neg (by omega)]; simp
      simp [hk, hgk, d]

/-- `clip_faces` on a packed batch: all its results in terms of the list of clipped triangles. -/
theorem clipFaces_desc {fr : Frustum K} {fs : List (Tri K)} {num : List Nat} (hnum : num.sum = fs.length) {r : Clipped K}
    (h : clipFaces sh fr fs (firsts num) (num.map fun (n : Nat) => (n : Int)) = .ok r) :
    r.faceVerts = (flat fr fs fs.length).map (fun e => e.2.2.1) ∧
    (∀ (j : Nat) (e : Nat × Nat × Tri K × Option (Tri K)), (flat fr fs fs.length)[j]? = some e → ∀ w,
      convert r j w = some ((e.1 : Int), interp (e.2.2.2.getD one) w)) ∧
    (∀ m < num.length, r.firstIdx[m]? = some (start fr fs (num.take m).sum : Int) ∧
      r.numFaces[m]? = some ((start fr fs (num.take (m + 1)).sum : Int) - start fr fs (num.take m).sum)) ∧
    ((r.neighbor = none ∧ ∀ u < fs.length, is4 fr (row fs u) = false) ∨ ∃ nb, r.neighbor = some nb ∧ nb.length = start fr fs fs.length ∧
      ∀ (j : Nat) (e : Nat × Nat × Tri K × Option (Tri K)), (flat fr fs fs.length)[j]? = some e → nb[j]? = some (nbOf fr fs e)) := by
  by_cases hq : ∀ u < fs.length, is1 fr (row fs u) = true
  · unfold clipFaces at h
    rw [if_pos ((quiet_iff fr fs).mpr hq)] at h
    cases h
    have hst := start_quiet hq
    have hle : ∀ m, (num.take m).sum ≤ fs.length := fun m => by
      rw [← hnum]; conv_rhs => rw [← List.take_append_drop m num, List.sum_append]
      omega
    have hfl : ∀ {j : Nat} {e : Nat × Nat × Tri K × Option (Tri K)}, (flat fr fs fs.length)[j]? = some e → e = (j, 0, row fs j, none) ∧ j < fs.length := by
      intro j e he
      obtain ⟨hu, hp, hj⟩ := flat_mem fr fs he
      rw [hst _ hu.le] at hj
      rw [parts1 (hq _ hu)] at hp
      have hs := (List.getElem?_eq_some_iff.mp hp).1
      have hs0 : e.2.1 = 0 := by simpa using hs
      rw [hs0] at hp hj
      simp only [List.getElem?_cons_zero, Option.some.injEq] at hp
      rw [Nat.add_zero] at hj
      subst hj
      refine ⟨?_, hu⟩
      obtain ⟨u, s, p⟩ := e
      simp only at hs0 hp
      rw [hs0, ← hp]
    refine ⟨?_, ?_, ?_, Or.inl ⟨rfl, ?_⟩⟩
    · apply List.ext_getElem?
      intro j
      by_cases hj : j < fs.length
      · have := flat_get fr fs (s := 0) (p := (row fs j, none)) hj (by simp [parts1 (hq j hj)])
        rw [hst j hj.le, Nat.add_zero] at this
        simp only
        rw [List.getElem?_map, this, List.getElem?_eq_getElem hj]
        simp [row, hj]
      · rw [List.getElem?_eq_none (by simp only; omega), List.getElem?_eq_none (by rw [List.length_map, flat_length, hst _ le_rfl]; omega)]
    · intro j e he w
      rw [(hfl he).1]
      simp [Clip.convert, interp_one]
    · intro m hm
      rw [hst _ (hle m), hst _ (hle (m + 1))]
      constructor
      · rw [firsts, List.getElem?_map, List.getElem?_range hm]; rfl
      · rw [List.getElem?_map, List.take_add_one, List.getElem?_eq_getElem hm]
        simp only [Option.map_some, Option.toList_some, List.sum_append, List.sum_singleton]
        congr 1; push_cast; ring
    · intro u hu
      rcases parts_cases fr (row fs u) with ⟨-, -, -, h4, -⟩ | ⟨h1, -⟩ | ⟨h1, -⟩ | ⟨h1, -⟩
      · exact h4
      all_goals rw [hq u hu] at h1; simp at h1
  · have hf : ∀ i ∈ firsts num, i.toNat < fs.length := by
      by_contra hf
      unfold clipFaces at h
      rw [if_neg (mt (quiet_iff fr fs).mp hq)] at h
      simp only at h
      rw [mapM_get, if_neg (by rw [offsets_length]; exact hf)] at h
      simp at h
    obtain ⟨r', hr', h1, h2, h3⟩ := clipFaces_ok hsh hq (firsts num) (num.map fun (n : Nat) => (n : Int)) hf
    rw [h] at hr'
    cases hr'
    refine ⟨h3.verts, fun j e he w => h3.convert he w, ?_, ?_⟩
    · intro m hm
      have hfi : ∀ m < num.length, r.firstIdx[m]? = some (start fr fs (num.take m).sum : Int) := by
        intro m hm
        rw [h1, List.getElem?_map, firsts, List.getElem?_map, List.getElem?_range hm]
        rfl
      refine ⟨hfi m hm, ?_⟩
      have hlen : r.firstIdx.length = num.length := by rw [h1]; simp [firsts]
      rw [h2, List.getElem?_zipWith, hfi m hm]
      by_cases hlast : m + 1 < num.length
      · rw [List.getElem?_append_left (by rw [List.length_tail]; omega), List.getElem?_tail, hfi _ hlast]
      · rw [List.getElem?_append_right (by rw [List.length_tail]; omega)]
        have e : m - r.firstIdx.tail.length = 0 := by rw [List.length_tail]; omega
        rw [e, List.take_of_length_le (i := m + 1) (by omega), hnum]
        rfl
    · rcases h3.tables with ⟨-, -, hn, h34⟩ | ⟨conv, ci, nb, -, -, hn, -, hl, -, hv⟩
      · exact Or.inl ⟨hn, fun u hu => (h34 u hu).2⟩
      · exact Or.inr ⟨nb, hn, hl, hv⟩

end stores

end P3D.Clip
