/-
`TexturesUV.join_scene`, `renderer/mesh/textures.py:1440-1607`: several maps are copied into one and the UV coordinates are
changed accordingly.
-/
import Verif.PackRect
import Verif.UvSample

set_option linter.unusedSectionVars false
set_option linter.unusedSimpArgs false
set_option linter.unnecessarySeqFocus false

namespace P3D.Uv
open P3D.PackRect

variable {K : Type} [Field K] [LinearOrder K] [IsStrictOrderedRing K] [FloorRing K]

/-! ### Model -/

/-- Assignment to a slice: rows `r0 .. r1`, columns `c0 .. c1`. -/
def write (s : Int → Int → K) (r0 r1 c0 c1 : Int) (src : Int → Int → K) : Int → Int → K :=
  fun i j => if r0 ≤ i ∧ i < r1 ∧ c0 ≤ j ∧ j < c1 then src i j else s i j

/-- `source`, line 1456. -/
def source (m : TexMap K) (flip : Bool) : TexMap K := if flip then ⟨m.W, m.H, fun i j => m.val j i⟩ else m

/-- `_place_map_into_single_map`, lines 1440-1479. -/
def place (c : Cfg) (s : Int → Int → K) (m : TexMap K) (loc : Placed) : Int → Int → K :=
  let src := source m loc.flipped
  let bw : Int := if c.align then 0 else 1
  let lu := loc.x + bw
  let lv := loc.y + bw
  let uu := lu + src.H
  let uv := lv + src.W
  let s := write s lu uu lv uv fun i j => src.val (i - lu) (j - lv)
  if c.pad ≠ .zeros ∧ c.align = false then
    let s := write s (lu - 1) lu lv uv fun _ j => s lu j
    let s := write s uu (uu + 1) lv uv fun _ j => s (uu - 1) j
    let s := write s lu uu (lv - 1) lv fun i _ => s i lv
    let s := write s lu uu uv (uv + 1) fun i _ => s i (uv - 1)
    let s := write s (lu - 1) lu (lv - 1) lv fun _ _ => s lu lv
    let s := write s (lu - 1) lu uv (uv + 1) fun _ _ => s lu (uv - 1)
    let s := write s uu (uu + 1) (lv - 1) lv fun _ _ => s (uu - 1) lv
    write s uu (uu + 1) uv (uv + 1) fun _ _ => s (uu - 1) (uv - 1)
  else s

/-- One mesh of the batch: the map with its Python `id`, `verts_uvs`, `faces_uvs`. -/
structure Item (K : Type) where
  ident : Nat
  map : TexMap K
  uvs : List (K × K)
  faces : List (Nat × Nat × Nat)

/-- The new coordinates of lines 1523-1591, `total` is `merging_plan.total_size`. -/
def newUv (c : Cfg) (total : Int × Int) (m : TexMap K) (loc : Placed) (p : K × K) : K × K :=
  let p := if loc.flipped then (1 - p.2, 1 - p.1) else p
  let xs : Int := if loc.flipped then m.W else m.H
  let ys : Int := if loc.flipped then m.H else m.W
  let a : Int := if c.align then 1 else 0
  let b : Int := 1 - a
  let dx : K := ((total.1 - a : Int) : K)
  let dy : K := ((total.2 - a : Int) : K)
  (p.1 * (((ys - a : Int) : K) / dy) + ((loc.y + b : Int) : K) / dy,
   p.2 * (((xs - a : Int) : K) / dx) + ((total.1 - xs - loc.x - b : Int) : K) / dx)

inductive Err | value | zeroDivision
  deriving DecidableEq

structure Joined (K : Type) where
  map : TexMap K
  uvs : List (K × K)
  faces : List (Nat × Nat × Nat)

/-- Lines 1596-1598. -/
def offsetFaces : Nat → List (Item K) → List (Nat × Nat × Nat)
  | _, [] => []
  | off, it :: its => it.faces.map (fun f => (off + f.1, off + f.2.1, off + f.2.2)) ++ offsetFaces (off + it.uvs.length) its

/-- The rectangles of lines 1505-1510. -/
def rects (c : Cfg) (items : List (Item K)) : List Rect :=
  let extra : Int := if c.align then 0 else 2
  items.map fun it => ⟨it.map.H + extra, it.map.W + extra, it.ident⟩

/-- The loop of lines 1517-1521: the first occurrence of every map is copied. -/
def singleMap (c : Cfg) (items : List (Item K)) (locs : List Placed) : Int → Int → K :=
  (items.zip locs).foldl (fun s q => if q.2.isFirst then place c s q.1.map q.2 else s) fun _ _ => 0

/-- `join_scene`, lines 1481-1607.  `ZeroDivisionError`: `scale_x / denom_x` of line 1585 with Python integers. -/
def joinScene (c : Cfg) (items : List (Item K)) : Except Err (Joined K) :=
  match packUnique (rects c items) with
  | none => .error .value
  | some (total, locs) =>
    let a : Int := if c.align then 1 else 0
    if total.1 - a = 0 ∨ total.2 - a = 0 then .error .zeroDivision
    else .ok ⟨⟨total.1.toNat, total.2.toNat, singleMap c items locs⟩,
      (items.zip locs).flatMap fun q => q.1.uvs.map (newUv c total q.1.map q.2), offsetFaces 0 items⟩

/-! ### Copying -/

theorem write_in {s : Int → Int → K} {r0 r1 c0 c1 : Int} {src : Int → Int → K} {i j : Int}
    (h : r0 ≤ i ∧ i < r1 ∧ c0 ≤ j ∧ j < c1) : write s r0 r1 c0 c1 src i j = src i j := if_pos h

theorem write_out {s : Int → Int → K} {r0 r1 c0 c1 : Int} {src : Int → Int → K} {i j : Int}
    (h : ¬ (r0 ≤ i ∧ i < r1 ∧ c0 ≤ j ∧ j < c1)) : write s r0 r1 c0 c1 src i j = s i j := if_neg h

/-- The value at a cell after a map has been placed, from the value before. -/
def cell (c : Cfg) (m : TexMap K) (loc : Placed) (v : K) (i j : Int) : K :=
  let src := source m loc.flipped
  let bw : Int := if c.align then 0 else 1
  let r := i - (loc.x + bw)
  let q := j - (loc.y + bw)
  if 0 ≤ r ∧ r < src.H ∧ 0 ≤ q ∧ q < src.W then src.val r q
  else if (c.pad ≠ .zeros ∧ c.align = false) ∧ -1 ≤ r ∧ r ≤ src.H ∧ -1 ≤ q ∧ q ≤ src.W then
    src.val (clampI src.H r) (clampI src.W q)
  else v

theorem place_cell (c : Cfg) (s : Int → Int → K) {m : TexMap K} (hH : 1 ≤ m.H) (hW : 1 ≤ m.W) (loc : Placed) (i j : Int) :
    place c s m loc i j = cell c m loc (s i j) i j := by
  have hsH : 1 ≤ (source m loc.flipped).H := by unfold source; split <;> simp [hH, hW]
  have hsW : 1 ≤ (source m loc.flipped).W := by unfold source; split <;> simp [hH, hW]
  unfold place cell
  generalize source m loc.flipped = src at *
  obtain ⟨H, W, val⟩ := src
  simp only at hsH hsW ⊢
  have hH' : (1 : Int) ≤ H := by exact_mod_cast hsH
  have hW' : (1 : Int) ≤ W := by exact_mod_cast hsW
  by_cases hb : c.pad ≠ .zeros ∧ c.align = false
  · rw [if_pos hb]
    generalize hlu : loc.x + (if c.align = true then (0 : Int) else 1) = lu
    generalize hlv : loc.y + (if c.align = true then (0 : Int) else 1) = lv
    simp only [hb, true_and, ne_eq, not_false_eq_true]
    -- the nine stores, one after another
    obtain ⟨s1, d1⟩ : ∃ f, f = write s lu (lu + H) lv (lv + W) fun i j => val (i - lu) (j - lv) := ⟨_, rfl⟩
    obtain ⟨s2, d2⟩ : ∃ f, f = write s1 (lu - 1) lu lv (lv + W) fun _ j => s1 lu j := ⟨_, rfl⟩
    obtain ⟨s3, d3⟩ : ∃ f, f = write s2 (lu + H) (lu + H + 1) lv (lv + W) fun _ j => s2 (lu + H - 1) j := ⟨_, rfl⟩
    obtain ⟨s4, d4⟩ : ∃ f, f = write s3 lu (lu + H) (lv - 1) lv fun i _ => s3 i lv := ⟨_, rfl⟩
    obtain ⟨s5, d5⟩ : ∃ f, f = write s4 lu (lu + H) (lv + W) (lv + W + 1) fun i _ => s4 i (lv + W - 1) := ⟨_, rfl⟩
    obtain ⟨s6, d6⟩ : ∃ f, f = write s5 (lu - 1) lu (lv - 1) lv fun _ _ => s5 lu lv := ⟨_, rfl⟩
    obtain ⟨s7, d7⟩ : ∃ f, f = write s6 (lu - 1) lu (lv + W) (lv + W + 1) fun _ _ => s6 lu (lv + W - 1) := ⟨_, rfl⟩
    obtain ⟨s8, d8⟩ : ∃ f, f = write s7 (lu + H) (lu + H + 1) (lv - 1) lv fun _ _ => s7 (lu + H - 1) lv := ⟨_, rfl⟩
    obtain ⟨s9, d9⟩ : ∃ f, f = write s8 (lu + H) (lu + H + 1) (lv + W) (lv + W + 1) fun _ _ => s8 (lu + H - 1) (lv + W - 1) := ⟨_, rfl⟩
    rw [← d1, ← d2, ← d3, ← d4, ← d5, ← d6, ← d7, ← d8, ← d9]
    have i1 : ∀ {i j}, (lu ≤ i ∧ i < lu + H ∧ lv ≤ j ∧ j < lv + W) → s1 i j = val (i - lu) (j - lv) := fun h => by rw [d1]; exact write_in h
    have i2 : ∀ {i j}, (lu - 1 ≤ i ∧ i < lu ∧ lv ≤ j ∧ j < lv + W) → s2 i j = s1 lu j := fun h => by rw [d2]; exact write_in h
    have i3 : ∀ {i j}, (lu + H ≤ i ∧ i < lu + H + 1 ∧ lv ≤ j ∧ j < lv + W) → s3 i j = s2 (lu + H - 1) j := fun h => by
      rw [d3]; exact write_in h
    have i4 : ∀ {i j}, (lu ≤ i ∧ i < lu + H ∧ lv - 1 ≤ j ∧ j < lv) → s4 i j = s3 i lv := fun h => by rw [d4]; exact write_in h
    have i5 : ∀ {i j}, (lu ≤ i ∧ i < lu + H ∧ lv + W ≤ j ∧ j < lv + W + 1) → s5 i j = s4 i (lv + W - 1) := fun h => by
      rw [d5]; exact write_in h
    have i6 : ∀ {i j}, (lu - 1 ≤ i ∧ i < lu ∧ lv - 1 ≤ j ∧ j < lv) → s6 i j = s5 lu lv := fun h => by rw [d6]; exact write_in h
    have i7 : ∀ {i j}, (lu - 1 ≤ i ∧ i < lu ∧ lv + W ≤ j ∧ j < lv + W + 1) → s7 i j = s6 lu (lv + W - 1) := fun h => by
      rw [d7]; exact write_in h
    have i8 : ∀ {i j}, (lu + H ≤ i ∧ i < lu + H + 1 ∧ lv - 1 ≤ j ∧ j < lv) → s8 i j = s7 (lu + H - 1) lv := fun h => by
      rw [d8]; exact write_in h
    have i9 : ∀ {i j}, (lu + H ≤ i ∧ i < lu + H + 1 ∧ lv + W ≤ j ∧ j < lv + W + 1) → s9 i j = s8 (lu + H - 1) (lv + W - 1) := fun h => by
      rw [d9]; exact write_in h
    have o1 : ∀ {i j}, ¬ (lu ≤ i ∧ i < lu + H ∧ lv ≤ j ∧ j < lv + W) → s1 i j = s i j := fun h => by rw [d1]; exact write_out h
    have o2 : ∀ {i j}, ¬ (lu - 1 ≤ i ∧ i < lu ∧ lv ≤ j ∧ j < lv + W) → s2 i j = s1 i j := fun h => by rw [d2]; exact write_out h
    have o3 : ∀ {i j}, ¬ (lu + H ≤ i ∧ i < lu + H + 1 ∧ lv ≤ j ∧ j < lv + W) → s3 i j = s2 i j := fun h => by
      rw [d3]; exact write_out h
    have o4 : ∀ {i j}, ¬ (lu ≤ i ∧ i < lu + H ∧ lv - 1 ≤ j ∧ j < lv) → s4 i j = s3 i j := fun h => by rw [d4]; exact write_out h
    have o5 : ∀ {i j}, ¬ (lu ≤ i ∧ i < lu + H ∧ lv + W ≤ j ∧ j < lv + W + 1) → s5 i j = s4 i j := fun h => by
      rw [d5]; exact write_out h
    have o6 : ∀ {i j}, ¬ (lu - 1 ≤ i ∧ i < lu ∧ lv - 1 ≤ j ∧ j < lv) → s6 i j = s5 i j := fun h => by rw [d6]; exact write_out h
    have o7 : ∀ {i j}, ¬ (lu - 1 ≤ i ∧ i < lu ∧ lv + W ≤ j ∧ j < lv + W + 1) → s7 i j = s6 i j := fun h => by
      rw [d7]; exact write_out h
    have o8 : ∀ {i j}, ¬ (lu + H ≤ i ∧ i < lu + H + 1 ∧ lv - 1 ≤ j ∧ j < lv) → s8 i j = s7 i j := fun h => by
      rw [d8]; exact write_out h
    have o9 : ∀ {i j}, ¬ (lu + H ≤ i ∧ i < lu + H + 1 ∧ lv + W ≤ j ∧ j < lv + W + 1) → s9 i j = s8 i j := fun h => by
      rw [d9]; exact write_out h
    clear d1 d2 d3 d4 d5 d6 d7 d8 d9
    by_cases h1 : 0 ≤ i - lu ∧ i - lu < H ∧ 0 ≤ j - lv ∧ j - lv < W
    · rw [if_pos h1]
      simp (disch := omega) only [i1, i2, i3, i4, i5, i6, i7, i8, i9, o1, o2, o3, o4, o5, o6, o7, o8, o9]
    · rw [if_neg h1]
      by_cases h2 : -1 ≤ i - lu ∧ i - lu ≤ H ∧ -1 ≤ j - lv ∧ j - lv ≤ W
      · rw [if_pos h2]
        by_cases a1 : i - lu = -1
        · have ea : clampI (H : Int) (i - lu) = 0 := by unfold clampI; omega
          rw [ea]
          by_cases b1 : j - lv = -1
          · have eb : clampI (W : Int) (j - lv) = 0 := by unfold clampI; omega
            rw [eb]
            simp (disch := omega) only [i1, i2, i3, i4, i5, i6, i7, i8, i9, o1, o2, o3, o4, o5, o6, o7, o8, o9]
            simp
          · by_cases b2 : j - lv = W
            · have eb : clampI (W : Int) (j - lv) = W - 1 := by unfold clampI; omega
              rw [eb]
              simp (disch := omega) only [i1, i2, i3, i4, i5, i6, i7, i8, i9, o1, o2, o3, o4, o5, o6, o7, o8, o9]
              congr 1 <;> omega
            · have eb : clampI (W : Int) (j - lv) = j - lv := by unfold clampI; omega
              rw [eb]
              simp (disch := omega) only [i1, i2, i3, i4, i5, i6, i7, i8, i9, o1, o2, o3, o4, o5, o6, o7, o8, o9]
              congr 1 <;> omega
        · by_cases a2 : i - lu = H
          · have ea : clampI (H : Int) (i - lu) = H - 1 := by unfold clampI; omega
            rw [ea]
            by_cases b1 : j - lv = -1
            · have eb : clampI (W : Int) (j - lv) = 0 := by unfold clampI; omega
              rw [eb]
              simp (disch := omega) only [i1, i2, i3, i4, i5, i6, i7, i8, i9, o1, o2, o3, o4, o5, o6, o7, o8, o9]
              congr 1 <;> omega
            · by_cases b2 : j - lv = W
              · have eb : clampI (W : Int) (j - lv) = W - 1 := by unfold clampI; omega
                rw [eb]
                simp (disch := omega) only [i1, i2, i3, i4, i5, i6, i7, i8, i9, o1, o2, o3, o4, o5, o6, o7, o8, o9]
                congr 1 <;> omega
              · have eb : clampI (W : Int) (j - lv) = j - lv := by unfold clampI; omega
                rw [eb]
                simp (disch := omega) only [i1, i2, i3, i4, i5, i6, i7, i8, i9, o1, o2, o3, o4, o5, o6, o7, o8, o9]
                congr 1 <;> omega
          · have ea : clampI (H : Int) (i - lu) = i - lu := by unfold clampI; omega
            rw [ea]
            by_cases b1 : j - lv = -1
            · have eb : clampI (W : Int) (j - lv) = 0 := by unfold clampI; omega
              rw [eb]
              simp (disch := omega) only [i1, i2, i3, i4, i5, i6, i7, i8, i9, o1, o2, o3, o4, o5, o6, o7, o8, o9]
              congr 1 <;> omega
            · have eb : clampI (W : Int) (j - lv) = W - 1 := by unfold clampI; omega
              rw [eb]
              simp (disch := omega) only [i1, i2, i3, i4, i5, i6, i7, i8, i9, o1, o2, o3, o4, o5, o6, o7, o8, o9]
              congr 1 <;> omega
      · rw [if_neg h2]
        simp (disch := omega) only [o1, o2, o3, o4, o5, o6, o7, o8, o9]
  · rw [if_neg hb]
    simp only [hb, false_and, if_false]
    unfold write
    congr 1
    simp only [eq_iff_iff]
    omega

/-- The rectangle of a map. -/
def size (c : Cfg) (m : TexMap K) : Int × Int := ((m.H : Int) + if c.align then 0 else 2, (m.W : Int) + if c.align then 0 else 2)

theorem source_size (m : TexMap K) (f : Bool) : ((source m f).H : Int) = (orient f ((m.H : Int), (m.W : Int))).1 ∧
    ((source m f).W : Int) = (orient f ((m.H : Int), (m.W : Int))).2 := by
  cases f <;> simp [source, orient]

theorem orient_size (c : Cfg) (m : TexMap K) (f : Bool) : orient f (size c m) =
    (((source m f).H : Int) + (if c.align then 0 else 2), ((source m f).W : Int) + if c.align then 0 else 2) := by
  cases f <;> simp [source, orient, size]

/-- Outside its rectangle a map changes nothing. -/
theorem cell_out {c : Cfg} {m : TexMap K} {loc : Placed} {i j : Int} (h : ¬ Covers (size c m) loc i j) (v : K) :
    cell c m loc v i j = v := by
  unfold Covers at h
  rw [orient_size] at h
  unfold cell
  simp only at h ⊢
  cases ha : c.align
  · simp only [ha, Bool.false_eq_true, if_false] at h ⊢
    rw [if_neg (by omega), if_neg (by omega)]
  · simp only [ha, if_true] at h ⊢
    rw [if_neg (by omega), if_neg (by simp)]

theorem fold_cell (c : Cfg) (a b : Int) : ∀ (l : List (Item K × Placed)) (s : Int → Int → K),
    (∀ q ∈ l, 1 ≤ q.1.map.H ∧ 1 ≤ q.1.map.W) →
    (l.foldl (fun s q => if q.2.isFirst then place c s q.1.map q.2 else s) s) a b =
      l.foldl (fun v q => if q.2.isFirst then cell c q.1.map q.2 v a b else v) (s a b) := by
  intro l
  induction l with
  | nil => intros; rfl
  | cons q l ih =>
    intro s h
    rw [List.foldl_cons, List.foldl_cons, ih _ fun q hq => h q (by simp [hq])]
    congr 1
    split
    · exact place_cell c s (h q (by simp)).1 (h q (by simp)).2 _ _ _
    · rfl

theorem fold_out (c : Cfg) (a b : Int) : ∀ (l : List (Item K × Placed)) (v : K),
    (∀ q ∈ l, q.2.isFirst = true → ¬ Covers (size c q.1.map) q.2 a b) →
    l.foldl (fun v q => if q.2.isFirst then cell c q.1.map q.2 v a b else v) v = v := by
  intro l
  induction l with
  | nil => intros; rfl
  | cons q l ih =>
    intro v h
    rw [List.foldl_cons]
    have : (if q.2.isFirst = true then cell c q.1.map q.2 v a b else v) = v := by
      split
      · exact cell_out (h q (by simp) (by assumption)) v
      · rfl
    rw [this, ih v fun q hq => h q (by simp [hq])]

/-- One map covers a cell: it decides the value. -/
theorem fold_in (c : Cfg) (a b : Int) {l : List (Item K × Placed)} {k : Nat} {q : Item K × Placed} (hk : l[k]? = some q)
    (hf : q.2.isFirst = true) (hd : ∀ k' q', l[k']? = some q' → k' ≠ k → q'.2.isFirst = true → ¬ Covers (size c q'.1.map) q'.2 a b) (v : K) :
    l.foldl (fun v q => if q.2.isFirst then cell c q.1.map q.2 v a b else v) v = cell c q.1.map q.2 v a b := by
  induction l generalizing k v with
  | nil => simp at hk
  | cons q0 l ih =>
    rw [List.foldl_cons]
    cases k with
    | zero =>
      obtain rfl := Option.some.inj hk
      rw [if_pos hf]
      apply fold_out
      intro q' hq' hf'
      obtain ⟨n, hn, rfl⟩ := List.getElem_of_mem hq'
      exact hd (n + 1) _ (by rw [List.getElem?_cons_succ, List.getElem?_eq_getElem hn]) (by omega) hf'
    | succ k =>
      have : (if q0.2.isFirst = true then cell c q0.1.map q0.2 v a b else v) = v := by
        split
        · exact cell_out (hd 0 q0 rfl (by omega) (by assumption)) v
        · rfl
      rw [this]
      refine ih hk (fun k' q' h1 h2 h3 => hd (k' + 1) q' (by rw [List.getElem?_cons_succ]; exact h1) (by omega) h3) v

/-! ### Sampling -/

/-- Transposing a map and exchanging the coordinates. -/
theorem sample_flip (c : Cfg) (m : TexMap K) (p : K × K) : sampleUV c (source m true) (1 - p.2, 1 - p.1) = sampleUV c m p := by
  unfold sampleUV
  have e1 : lerp (-1 : K) 1 (1 - p.2) = lerp 1 (-1) p.2 := by unfold lerp; ring
  have e2 : lerp (1 : K) (-1) (1 - p.1) = lerp (-1) 1 p.1 := by unfold lerp; ring
  simp only [e1, e2]
  unfold gridSample
  have ht : ∀ i j, texel (source m true) i j = texel m j i := by
    intro i j
    unfold texel source
    simp only [if_true]
    congr 1
    simp only [eq_iff_iff]
    tauto
  cases c.mode
  · simp only [bilinear, ht]
    simp only [source, if_true]
    ring
  · simp only [ht]
    simp only [source, if_true]

/-- Pixel coordinates of a position in `[0, 1]`. -/
def rowOf (align : Bool) (H : Int) (v : K) : K := if align then (1 - v) * (H - 1) else (1 - v) * H - 1 / 2
def colOf (align : Bool) (W : Int) (u : K) : K := if align then u * (W - 1) else u * W - 1 / 2

theorem sampleUV_eq (c : Cfg) (m : TexMap K) (p : K × K) : sampleUV c m p =
    along c.mode (fun i => along c.mode (fun j => texel m i j) (padCoord c.align c.pad m.W (colOf c.align m.W p.1)))
      (padCoord c.align c.pad m.H (rowOf c.align m.H p.2)) := by
  unfold sampleUV
  rw [gridSample_eq]
  have e1 : unnorm c.align m.W (lerp (-1) 1 p.1) = colOf c.align m.W p.1 := by
    unfold unnorm colOf lerp
    split <;> ring
  have e2 : unnorm c.align m.H (lerp 1 (-1) p.2) = rowOf c.align m.H p.2 := by
    unfold unnorm rowOf lerp
    split <;> ring
  rw [e1, e2]

/-- In mode `nearest` the position must not be half way between two texels. -/
def Untied (c : Cfg) (m : TexMap K) (p : K × K) : Prop :=
  c.mode = .nearest → NoTie (colOf c.align m.W p.1) ∧ NoTie (rowOf c.align m.H p.2)

theorem rowOf_flip (align : Bool) (H : Int) (u : K) : rowOf align H (1 - u) = colOf align H u := by
  unfold rowOf colOf; split <;> ring

theorem colOf_flip (align : Bool) (W : Int) (v : K) : colOf align W (1 - v) = rowOf align W v := by
  unfold rowOf colOf; split <;> ring

/-- A map `src` placed without flipping at `(x, y)` of a larger map `J`. -/
theorem sample_placed {c : Cfg} {src J : TexMap K} (hH : 1 ≤ src.H) (hW : 1 ≤ src.W) {x y : Int} {n : Int} (hn : n = if c.align then 0 else 1)
    (hx : 0 ≤ x) (hy : 0 ≤ y) (hxH : x + src.H + 2 * n ≤ J.H) (hyW : y + src.W + 2 * n ≤ J.W)
    (hJ : ∀ i j : Int, -n ≤ i → i < src.H + n → -n ≤ j → j < src.W + n → J.val (i + (x + n)) (j + (y + n)) =
      if 0 ≤ i ∧ i < src.H ∧ 0 ≤ j ∧ j < src.W then src.val i j
      else if c.pad ≠ .zeros then src.val (clampI src.H i) (clampI src.W j) else 0)
    {p q : K × K} (h0 : 0 ≤ p.1) (h1 : p.1 ≤ 1) (h2 : 0 ≤ p.2) (h3 : p.2 ≤ 1) (ht : Untied c src p)
    (hq1 : colOf c.align J.W q.1 = colOf c.align src.W p.1 + ((y + n : Int) : K))
    (hq2 : rowOf c.align J.H q.2 = rowOf c.align src.H p.2 + ((x + n : Int) : K)) :
    sampleUV c J q = sampleUV c src p := by
  rw [sampleUV_eq, sampleUV_eq, hq1, hq2]
  have hH' : (1 : K) ≤ ((src.H : Int) : K) := by exact_mod_cast hH
  have hW' : (1 : K) ≤ ((src.W : Int) : K) := by exact_mod_cast hW
  have hxK : (0 : K) ≤ (x : K) := by exact_mod_cast hx
  have hyK : (0 : K) ≤ (y : K) := by exact_mod_cast hy
  have hxH' : (x : K) + ((src.H : Int) : K) + 2 * (n : K) ≤ ((J.H : Int) : K) := by exact_mod_cast hxH
  have hyW' : (y : K) + ((src.W : Int) : K) + 2 * (n : K) ≤ ((J.W : Int) : K) := by exact_mod_cast hyW
  -- the texels of the large map
  have hT : ∀ i j : Int, -n ≤ i → i < src.H + n → -n ≤ j → j < src.W + n → texel J (i + (x + n)) (j + (y + n)) =
      if 0 ≤ i ∧ i < src.H ∧ 0 ≤ j ∧ j < src.W then src.val i j
      else if c.pad ≠ .zeros then src.val (clampI src.H i) (clampI src.W j) else 0 := by
    intro i j a b d e
    rw [← hJ i j a b d e]
    unfold texel
    rw [if_pos (by omega)]
  have ht1 : c.mode = .nearest → NoTie (colOf c.align src.W p.1) := fun h => (ht h).1
  have ht2 : c.mode = .nearest → NoTie (rowOf c.align src.H p.2) := fun h => (ht h).2
  have m1 : 0 ≤ p.1 * (((src.W : Int) : K) - 1) := mul_nonneg h0 (by linarith)
  have m2 : p.1 * (((src.W : Int) : K) - 1) ≤ ((src.W : Int) : K) - 1 := mul_le_of_le_one_left (by linarith) h1
  have m3 : 0 ≤ (1 - p.2) * (((src.H : Int) : K) - 1) := mul_nonneg (by linarith) (by linarith)
  have m4 : (1 - p.2) * (((src.H : Int) : K) - 1) ≤ ((src.H : Int) : K) - 1 := mul_le_of_le_one_left (by linarith) (by linarith)
  have m5 : 0 ≤ p.1 * ((src.W : Int) : K) := mul_nonneg h0 (by linarith)
  have m6 : p.1 * ((src.W : Int) : K) ≤ ((src.W : Int) : K) := mul_le_of_le_one_left (by linarith) h1
  have m7 : 0 ≤ (1 - p.2) * ((src.H : Int) : K) := mul_nonneg (by linarith) (by linarith)
  have m8 : (1 - p.2) * ((src.H : Int) : K) ≤ ((src.H : Int) : K) := mul_le_of_le_one_left (by linarith) (by linarith)
  cases ha : c.align
  · -- not aligned: one texel of border
    simp only [ha, Bool.false_eq_true, if_false] at hn
    subst hn
    simp only [ha] at ht1 ht2
    generalize hcol : colOf false (src.W : Int) p.1 = col at *
    generalize hrow : rowOf false (src.H : Int) p.2 = row at *
    simp only [colOf, rowOf, Bool.false_eq_true, if_false] at hcol hrow
    have c0 : -1 / 2 ≤ col := by rw [← hcol]; linarith
    have c1 : col ≤ ((src.W : Int) : K) - 1 / 2 := by rw [← hcol]; linarith
    have r0 : -1 / 2 ≤ row := by rw [← hrow]; linarith
    have r1 : row ≤ ((src.H : Int) : K) - 1 / 2 := by rw [← hrow]; linarith
    push_cast at hxH' hyW'
    rw [padCoord_id false c.pad (by push_cast; linarith) (by push_cast at *; linarith),
      padCoord_id false c.pad (by push_cast; linarith) (by push_cast at *; linarith)]
    rw [along_shift _ ht2]
    have e : (fun i : Int => along c.mode (fun j => texel J (i + (x + 1)) j) (col + ((y + 1 : Int) : K)))
        = fun i : Int => along c.mode (fun j => texel J (i + (x + 1)) (j + (y + 1))) col := by
      funext i
      rw [along_shift _ ht1]
    rw [e]
    by_cases hp : c.pad = .zeros
    · rw [hp]
      simp only [padCoord]
      refine along_congr _ (lo := -1) (hi := src.H) (by push_cast; linarith) (by linarith) ?_
      intro i a b
      refine along_congr _ (lo := -1) (hi := src.W) (by push_cast; linarith) (by linarith) ?_
      intro j d f
      rw [hT i j a (by omega) d (by omega)]
      unfold texel
      rw [hp]
      simp
    · rw [padCoord_clip hp (by exact_mod_cast hW) c0 c1, padCoord_clip hp (by exact_mod_cast hH) r0 r1]
      rw [← along_clamp c.mode (by exact_mod_cast hH) _ row]
      refine along_congr _ (lo := -1) (hi := src.H) (by push_cast; linarith) (by linarith) ?_
      intro i a b
      rw [← along_clamp c.mode (by exact_mod_cast hW) _ col]
      refine along_congr _ (lo := -1) (hi := src.W) (by push_cast; linarith) (by linarith) ?_
      intro j d f
      rw [hT i j a (by omega) d (by omega), if_pos hp]
      have z1 : 0 ≤ clampI (src.H : Int) i ∧ clampI (src.H : Int) i < src.H := by unfold clampI; omega
      have z2 : 0 ≤ clampI (src.W : Int) j ∧ clampI (src.W : Int) j < src.W := by unfold clampI; omega
      have z3 : texel src (clampI (src.H : Int) i) (clampI (src.W : Int) j) = src.val (clampI (src.H : Int) i) (clampI (src.W : Int) j) :=
        if_pos ⟨z1.1, z1.2, z2.1, z2.2⟩
      rw [z3]
      split
      · have z4 : clampI (src.H : Int) i = i := by unfold clampI; omega
        have z5 : clampI (src.W : Int) j = j := by unfold clampI; omega
        rw [z4, z5]
      · rfl
  · simp only [ha, if_true] at hn
    subst hn
    simp only [ha] at ht1 ht2
    generalize hcol : colOf true (src.W : Int) p.1 = col at *
    generalize hrow : rowOf true (src.H : Int) p.2 = row at *
    simp only [colOf, rowOf, if_true] at hcol hrow
    have c0 : 0 ≤ col := by rw [← hcol]; linarith
    have c1 : col ≤ ((src.W : Int) : K) - 1 := by rw [← hcol]; linarith
    have r0 : 0 ≤ row := by rw [← hrow]; linarith
    have r1 : row ≤ ((src.H : Int) : K) - 1 := by rw [← hrow]; linarith
    push_cast at hxH' hyW'
    rw [padCoord_id true c.pad (x := col) c0 c1, padCoord_id true c.pad (x := row) r0 r1]
    rw [padCoord_id true c.pad (by push_cast; linarith) (by push_cast at *; linarith),
      padCoord_id true c.pad (by push_cast; linarith) (by push_cast at *; linarith)]
    rw [along_shift _ ht2]
    have e : (fun i : Int => along c.mode (fun j => texel J (i + (x + 0)) j) (col + ((y + 0 : Int) : K)))
        = fun i : Int => along c.mode (fun j => texel J (i + (x + 0)) (j + (y + 0))) col := by
      funext i
      rw [along_shift _ ht1]
    rw [e]
    refine along_congr _ (lo := 0) (hi := src.H - 1) (by push_cast; linarith) (by push_cast at *; linarith) ?_
    intro i a b
    refine along_congr _ (lo := 0) (hi := src.W - 1) (by push_cast; linarith) (by push_cast at *; linarith) ?_
    intro j d f
    rw [hT i j (by omega) (by omega) (by omega) (by omega), if_pos (by omega)]
    unfold texel
    rw [if_pos (by omega)]

/-- A map placed at `loc` and sampled at the new coordinates gives the same value as the original map. -/
theorem sample_newUv {c : Cfg} {m : TexMap K} (hH : 1 ≤ m.H) (hW : 1 ≤ m.W) {loc : Placed} {total : Int × Int}
    (hin : Inside total (size c m) loc) {g : Int → Int → K}
    (hg : ∀ i j, Covers (size c m) loc i j → g i j = cell c m loc 0 i j)
    (hd1 : total.1 - (if c.align then 1 else 0) ≠ 0) (hd2 : total.2 - (if c.align then 1 else 0) ≠ 0)
    {p : K × K} (h0 : 0 ≤ p.1) (h1 : p.1 ≤ 1) (h2 : 0 ≤ p.2) (h3 : p.2 ≤ 1) (ht : Untied c m p) :
    sampleUV c ⟨total.1.toNat, total.2.toNat, g⟩ (newUv c total m loc p) = sampleUV c m p := by
  -- reduce to the unflipped case
  obtain ⟨src, hsrc⟩ : ∃ s, s = source m loc.flipped := ⟨_, rfl⟩
  obtain ⟨p', hp'⟩ : ∃ p' : K × K, p' = if loc.flipped then (1 - p.2, 1 - p.1) else p := ⟨_, rfl⟩
  have hsame : sampleUV c m p = sampleUV c src p' := by
    rw [hsrc, hp']
    cases hf : loc.flipped
    · rfl
    · simp only [if_true]; rw [sample_flip]
  have hS : (src.H : Int) = (if loc.flipped then (m.W : Int) else m.H) ∧ (src.W : Int) = if loc.flipped then (m.H : Int) else m.W := by
    rw [hsrc]
    cases loc.flipped <;> simp [source]
  have hsH : 1 ≤ src.H := by rw [hsrc]; unfold source; split <;> simp [hH, hW]
  have hsW : 1 ≤ src.W := by rw [hsrc]; unfold source; split <;> simp [hH, hW]
  have b0 : 0 ≤ p'.1 ∧ p'.1 ≤ 1 ∧ 0 ≤ p'.2 ∧ p'.2 ≤ 1 := by
    rw [hp']
    split
    · simp only; refine ⟨?_, ?_, ?_, ?_⟩ <;> linarith
    · exact ⟨h0, h1, h2, h3⟩
  have ht' : Untied c src p' := by
    intro hm
    obtain ⟨t1, t2⟩ := ht hm
    rw [hsrc, hp']
    cases hf : loc.flipped
    · exact ⟨t1, t2⟩
    · simp only [if_true, source, colOf_flip, rowOf_flip]
      exact ⟨t2, t1⟩
  rw [hsame]
  unfold Inside at hin
  unfold Covers at hg
  rw [orient_size, ← hsrc] at hin hg
  simp only at hin hg
  have hT1 : ((total.1.toNat : Nat) : Int) = total.1 := Int.toNat_of_nonneg (by split at hin <;> omega)
  have hT2 : ((total.2.toNat : Nat) : Int) = total.2 := Int.toNat_of_nonneg (by split at hin <;> omega)
  have hnew : newUv c total m loc p =
      (p'.1 * (((src.W - (if c.align then 1 else 0) : Int) : K) / ((total.2 - (if c.align then 1 else 0) : Int) : K))
        + ((loc.y + (1 - if c.align then 1 else 0) : Int) : K) / ((total.2 - (if c.align then 1 else 0) : Int) : K),
       p'.2 * (((src.H - (if c.align then 1 else 0) : Int) : K) / ((total.1 - (if c.align then 1 else 0) : Int) : K))
        + ((total.1 - src.H - loc.x - (1 - if c.align then 1 else 0) : Int) : K) / ((total.1 - (if c.align then 1 else 0) : Int) : K)) := by
    unfold newUv
    rw [hS.1, hS.2, ← hp']
  have hD1 : ((total.1 - (if c.align then 1 else 0) : Int) : K) ≠ 0 := by exact_mod_cast hd1
  have hD2 : ((total.2 - (if c.align then 1 else 0) : Int) : K) ≠ 0 := by exact_mod_cast hd2
  refine sample_placed (n := if c.align then 0 else 1) (x := loc.x) (y := loc.y) hsH hsW rfl hin.1 hin.2.2.1 ?_ ?_ ?_ b0.1 b0.2.1 b0.2.2.1
    b0.2.2.2 ht' ?_ ?_
  · simp only [hT1]
    cases ha : c.align <;> simp only [ha, Bool.false_eq_true, if_false, if_true] at hin ⊢ <;> omega
  · simp only [hT2]
    cases ha : c.align <;> simp only [ha, Bool.false_eq_true, if_false, if_true] at hin ⊢ <;> omega
  · intro i j a b d e
    simp only
    rw [hg]
    · unfold cell
      rw [← hsrc]
      simp only
      have z1 : i + (loc.x + if c.align = true then (0 : Int) else 1) - (loc.x + if c.align = true then (0 : Int) else 1) = i := by ring
      have z2 : j + (loc.y + if c.align = true then (0 : Int) else 1) - (loc.y + if c.align = true then (0 : Int) else 1) = j := by ring
      rw [z1, z2]
      cases ha : c.align
      · simp only [ha, Bool.false_eq_true, if_false, and_true] at a b d e ⊢
        by_cases hh : 0 ≤ i ∧ i < src.H ∧ 0 ≤ j ∧ j < src.W
        · rw [if_pos hh, if_pos hh]
        · rw [if_neg hh, if_neg hh]
          congr 1
          simp only [eq_iff_iff]
          constructor
          · exact fun h => h.1
          · exact fun h => ⟨h, by omega⟩
      · simp only [ha, if_true] at a b d e ⊢
        rw [if_pos (by omega), if_pos (by omega)]
    · cases ha : c.align <;> simp only [ha, Bool.false_eq_true, if_false, if_true] at a b d e ⊢ <;> omega
  · rw [hnew]
    simp only [hT2]
    cases ha : c.align
    · simp only [ha, Bool.false_eq_true, if_false, sub_zero] at hD2 ⊢
      simp only [colOf, Bool.false_eq_true, if_false]
      field_simp
      push_cast
      ring
    · simp only [ha, if_true] at hD2 ⊢
      simp only [colOf, if_true]
      push_cast at hD2 ⊢
      field_simp
  · rw [hnew]
    simp only [hT1]
    cases ha : c.align
    · simp only [ha, Bool.false_eq_true, if_false, sub_zero] at hD1 ⊢
      simp only [rowOf, Bool.false_eq_true, if_false]
      field_simp
      push_cast
      ring
    · simp only [ha, if_true] at hD1 ⊢
      simp only [rowOf, if_true]
      push_cast at hD1 ⊢
      field_simp
      ring

/-! ### `join_scene` -/

/-- The coordinates of a pixel: barycentric interpolation of the coordinates of the corners of a face (lines 1215-1226);
`none`: an index out of range. -/
def pixelUv (uvs : List (K × K)) (f : Nat × Nat × Nat) (w : K × K × K) : Option (K × K) := do
  let a ← uvs[f.1]?
  let b ← uvs[f.2.1]?
  let d ← uvs[f.2.2]?
  some (w.1 * a.1 + w.2.1 * b.1 + w.2.2 * d.1, w.1 * a.2 + w.2.1 * b.2 + w.2.2 * d.2)

/-- The new coordinates are an affine function of the old ones. -/
theorem newUv_affine (c : Cfg) (total : Int × Int) (m : TexMap K) (loc : Placed) (a b d : K × K) {w : K × K × K}
    (hw : w.1 + w.2.1 + w.2.2 = 1) :
    newUv c total m loc (w.1 * a.1 + w.2.1 * b.1 + w.2.2 * d.1, w.1 * a.2 + w.2.1 * b.2 + w.2.2 * d.2) =
      (w.1 * (newUv c total m loc a).1 + w.2.1 * (newUv c total m loc b).1 + w.2.2 * (newUv c total m loc d).1,
       w.1 * (newUv c total m loc a).2 + w.2.1 * (newUv c total m loc b).2 + w.2.2 * (newUv c total m loc d).2) := by
  obtain ⟨w0, w1, w2⟩ := w
  simp only at hw
  obtain rfl : w2 = 1 - w0 - w1 := by linear_combination hw
  unfold newUv
  cases loc.flipped
  · simp only [Bool.false_eq_true, if_false]
    ext <;> simp only <;> ring
  · simp only [if_true]
    ext <;> simp only <;> ring

theorem flatMap_get {α β : Type} (f : α → List β) : ∀ (l : List α) {k : Nat} {q : α} {i : Nat}, l[k]? = some q → i < (f q).length →
    (l.flatMap f)[((l.take k).map fun q => (f q).length).sum + i]? = (f q)[i]? := by
  intro l
  induction l with
  | nil => intro k q i h; simp at h
  | cons a l ih =>
    intro k q i hk hi
    cases k with
    | zero =>
      obtain rfl := Option.some.inj hk
      simp only [List.take_zero, List.map_nil, List.sum_nil, Nat.zero_add, List.flatMap_cons]
      rw [List.getElem?_append_left hi]
    | succ k =>
      rw [List.getElem?_cons_succ] at hk
      simp only [List.take_succ_cons, List.map_cons, List.sum_cons, List.flatMap_cons]
      rw [List.getElem?_append_right (by omega)]
      rw [← ih hk hi]
      congr 1
      omega

theorem offsetFaces_get : ∀ (items : List (Item K)) (off : Nat) {k : Nat} {it : Item K} {n : Nat} {f : Nat × Nat × Nat},
    items[k]? = some it → it.faces[n]? = some f →
    (offsetFaces off items)[((items.take k).map fun it => it.faces.length).sum + n]? =
      some (off + ((items.take k).map fun it => it.uvs.length).sum + f.1, off + ((items.take k).map fun it => it.uvs.length).sum + f.2.1,
        off + ((items.take k).map fun it => it.uvs.length).sum + f.2.2) := by
  intro items
  induction items with
  | nil => intro off k it n f h; simp at h
  | cons a items ih =>
    intro off k it n f hk hf
    have hn : n < it.faces.length := (List.getElem?_eq_some_iff.mp hf).1
    cases k with
    | zero =>
      obtain rfl := Option.some.inj hk
      simp only [List.take_zero, List.map_nil, List.sum_nil, Nat.zero_add, offsetFaces, Nat.add_zero]
      rw [List.getElem?_append_left (by simpa using hn), List.getElem?_map, hf]
      rfl
    | succ k =>
      rw [List.getElem?_cons_succ] at hk
      simp only [List.take_succ_cons, List.map_cons, List.sum_cons, offsetFaces]
      rw [List.getElem?_append_right (by simp; omega)]
      have := ih (off + a.uvs.length) hk hf
      rw [← Nat.add_assoc off]
      rw [← this]
      congr 1
      simp
      omega

/-- **`join_scene`**, for a batch of at least two non-empty maps (equal `id` meaning equal maps).  The only failure is
`ZeroDivisionError`, which needs `align_corners`; otherwise: for every face of every mesh and all barycentric weights with sum 1
at which the interpolated coordinates lie in the unit square, sampling the joined map through the joined faces and coordinates
gives exactly the value of the original map at the original coordinates, for every padding mode and both values of
`align_corners` (in mode `nearest`: unless the position is half way between two texels). -/
theorem joinScene_spec {c : Cfg} {items : List (Item K)} (h2 : 2 ≤ items.length)
    (hpos : ∀ it ∈ items, 1 ≤ it.map.H ∧ 1 ≤ it.map.W) (hid : ∀ a ∈ items, ∀ b ∈ items, a.ident = b.ident → a.map = b.map) :
    (joinScene c items = .error .zeroDivision ∧ c.align = true ∧ ∀ it ∈ items, it.map.H = 1 ∨ it.map.W = 1) ∨
    ∃ J, joinScene c items = .ok J ∧ J.faces.length = (items.map fun it => it.faces.length).sum ∧
      ∀ (k : Nat) (it : Item K), items[k]? = some it → ∀ (n : Nat) (f : Nat × Nat × Nat), it.faces[n]? = some f →
        ∃ g, J.faces[((items.take k).map fun it => it.faces.length).sum + n]? = some g ∧
          ∀ (w : K × K × K) (p : K × K), w.1 + w.2.1 + w.2.2 = 1 → pixelUv it.uvs f w = some p →
            0 ≤ p.1 → p.1 ≤ 1 → 0 ≤ p.2 → p.2 ≤ 1 → Untied c it.map p →
            ∃ q, pixelUv J.uvs g w = some q ∧ sampleUV c J.map q = sampleUV c it.map p := by
  have hrlen : (rects c items).length = items.length := by simp [rects]
  have hrget : ∀ (i : Nat) (it : Item K), items[i]? = some it → (rects c items)[i]? =
      some ⟨(size c it.map).1, (size c it.map).2, it.ident⟩ := by
    intro i it h
    simp only [rects, List.getElem?_map, h, Option.map_some, size]
  obtain ⟨total, locs, e1, e2, e3, e4⟩ := packUnique_spec (rs := rects c items) (by omega) (by
      intro r hr
      simp only [rects, List.mem_map] at hr
      obtain ⟨it, hit, rfl⟩ := hr
      have := hpos it hit
      simp only
      split <;> omega) (by
      intro r hr r' hr' he
      simp only [rects, List.mem_map] at hr hr'
      obtain ⟨it, hit, rfl⟩ := hr
      obtain ⟨it', hit', rfl⟩ := hr'
      simp only at he ⊢
      rw [hid it hit it' hit' he]
      exact ⟨rfl, rfl⟩)
  have hll : locs.length = items.length := by rw [e2, hrlen]
  have hget : ∀ (i : Nat) (it : Item K), items[i]? = some it → ∃ loc, locs[i]? = some loc ∧ Inside total (size c it.map) loc := by
    intro i it h
    have hi : i < locs.length := by rw [hll]; exact (List.getElem?_eq_some_iff.mp h).1
    exact ⟨locs[i], List.getElem?_eq_getElem hi, (e3 i _ _ (hrget i it h) (List.getElem?_eq_getElem hi)).1⟩
  unfold joinScene
  rw [e1]
  simp only
  by_cases hz : total.1 - (if c.align = true then 1 else 0) = 0 ∨ total.2 - (if c.align = true then 1 else 0) = 0
  · left
    rw [if_pos hz]
    have key : ∀ it ∈ items, c.align = true ∧ (it.map.H = 1 ∨ it.map.W = 1) := by
      intro it hit
      obtain ⟨i, hi, hi'⟩ := List.getElem_of_mem hit
      obtain ⟨loc, -, hin⟩ := hget i it (by rw [List.getElem?_eq_getElem hi, hi'])
      have hp := hpos it hit
      unfold Inside at hin
      cases ha : c.align
      · cases hf : loc.flipped <;> simp only [ha, hf, size, orient, Bool.false_eq_true, if_false, if_true] at hin hz <;> omega
      · refine ⟨rfl, ?_⟩
        cases hf : loc.flipped <;> simp only [ha, hf, size, orient, Bool.false_eq_true, if_false, if_true] at hin hz <;> omega
    refine ⟨rfl, (key items[0] (List.getElem_mem _)).1, fun it hit => (key it hit).2⟩
  · right
    rw [if_neg hz]
    push Not at hz
    refine ⟨_, rfl, ?_, ?_⟩
    · simp only
      generalize 0 = off
      clear h2 hpos hid hrlen hrget e1 e2 e3 e4 hll hget
      induction items generalizing off with
      | nil => rfl
      | cons a l ih => simp [offsetFaces, ih]
    · intro k it hk n f hf
      obtain ⟨loc, hloc, hin⟩ := hget k it hk
      have hit := List.mem_of_getElem? hk
      refine ⟨_, offsetFaces_get items 0 hk hf, ?_⟩
      intro w p hw hp p0 p1 p2 p3 ht
      -- the coordinates
      have hzk : (items.zip locs)[k]? = some (it, loc) := by
        rw [List.getElem?_zip_eq_some]; exact ⟨hk, hloc⟩
      have huv : ∀ (i : Nat) (a : K × K), it.uvs[i]? = some a →
          ((items.zip locs).flatMap fun q => q.1.uvs.map (newUv c total q.1.map q.2))[0 + ((items.take k).map fun it => it.uvs.length).sum + i]?
            = some (newUv c total it.map loc a) := by
        intro i a ha
        have hi : i < it.uvs.length := (List.getElem?_eq_some_iff.mp ha).1
        have := flatMap_get (fun q : Item K × Placed => q.1.uvs.map (newUv c total q.1.map q.2)) (items.zip locs) hzk (i := i) (by simpa using hi)
        rw [List.getElem?_map, ha] at this
        rw [← Option.map_some (f := newUv c total it.map loc), ← this]
        congr 1
        have hlen : (List.map (fun q : Item K × Placed => (List.map (newUv c total q.1.map q.2) q.1.uvs).length) (List.take k (items.zip locs))).sum
            = (List.map (fun it : Item K => it.uvs.length) (List.take k items)).sum := by
          congr 1
          simp only [List.length_map]
          have : List.take k items = (List.take k (items.zip locs)).map Prod.fst := by
            rw [List.map_take, List.map_fst_zip (by omega)]
          rw [this, List.map_map]
          rfl
        omega
      unfold pixelUv at hp ⊢
      cases ha : it.uvs[f.1]? with
      | none => simp [ha] at hp
      | some a =>
        cases hb : it.uvs[f.2.1]? with
        | none => simp [ha, hb] at hp
        | some b =>
          cases hd : it.uvs[f.2.2]? with
          | none => simp [ha, hb, hd] at hp
          | some d =>
            rw [huv _ a ha, huv _ b hb, huv _ d hd]
            simp only [ha, hb, hd, Option.bind_eq_bind, Option.bind_some, Option.some.injEq] at hp ⊢
            refine ⟨_, rfl, ?_⟩
            rw [← newUv_affine c total it.map loc a b d hw, hp]
            -- the first mesh with the same map
            refine sample_newUv (hpos it hit).1 (hpos it hit).2 hin ?_ hz.1 hz.2 p0 p1 p2 p3 ht
            intro i j hcov
            obtain ⟨k0, it0, loc0, hk0, hloc0, hident, hfirst⟩ : ∃ (k0 : Nat) (it0 : Item K) (loc0 : Placed), items[k0]? = some it0 ∧ locs[k0]? = some loc0 ∧
                it0.ident = it.ident ∧ loc0.isFirst = true := by
              have hex : ∃ k0 : Nat, ∃ it0 : Item K, items[k0]? = some it0 ∧ it0.ident = it.ident := ⟨k, it, hk, rfl⟩
              classical
              obtain ⟨it0, h1, h2⟩ := Nat.find_spec hex
              obtain ⟨loc0, h3, -⟩ := hget _ _ h1
              refine ⟨Nat.find hex, it0, loc0, h1, h3, h2, ?_⟩
              rw [(e3 _ _ _ (hrget _ _ h1) h3).2]
              intro j hj r' hr' he
              have hjl : j < items.length := by rw [← hrlen]; exact (List.getElem?_eq_some_iff.mp hr').1
              rw [hrget j items[j] (List.getElem?_eq_getElem hjl)] at hr'
              obtain rfl := Option.some.inj hr'
              exact Nat.find_min hex hj ⟨items[j], List.getElem?_eq_getElem hjl, by simpa [h2] using he⟩
            have hmap : it0.map = it.map := hid it0 (List.mem_of_getElem? hk0) it hit hident
            obtain ⟨s1, s2, s3⟩ := (e4 k0 k _ _ loc0 loc (hrget k0 it0 hk0) hloc0 (hrget k it hk) hloc).1 hident
            have hcell : cell c it0.map loc0 0 i j = cell c it.map loc 0 i j := by
              unfold cell
              rw [hmap, s1, s2, s3]
            rw [← hcell]
            unfold singleMap
            rw [fold_cell c i j _ _ (by
              intro q hq
              exact hpos _ (List.of_mem_zip hq).1)]
            apply fold_in c i j (k := k0) (q := (it0, loc0)) (by rw [List.getElem?_zip_eq_some]; exact ⟨hk0, hloc0⟩) hfirst
            intro k' q' hq' hne hf' hcov'
            rw [List.getElem?_zip_eq_some] at hq'
            have hdiff : it0.ident ≠ q'.1.ident := by
              intro he
              -- two first occurrences of one identifier
              have f0 := (e3 k0 _ _ (hrget _ _ hk0) hloc0).2.mp hfirst
              have f1 := (e3 k' _ _ (hrget _ _ hq'.1) hq'.2).2.mp hf'
              rcases lt_or_gt_of_ne hne with h | h
              · exact f0 k' h _ (hrget _ _ hq'.1) he.symm
              · exact f1 k0 h _ (hrget _ _ hk0) he
            have := (e4 k0 k' _ _ loc0 q'.2 (hrget _ _ hk0) hloc0 (hrget _ _ hq'.1) hq'.2).2 hdiff i j
            apply this
            refine ⟨?_, hcov'⟩
            unfold Covers at hcov ⊢
            rw [s1, s2, s3, hmap]
            exact hcov

/-- Two maps over the rationals. -/
def demo (h w h' w' : Nat) : List (Item Rat) :=
  [⟨10, ⟨h, w, fun i j => i * 10 + j + 1⟩, [(0, 0), (1, 0), (1, 1)], [(0, 1, 2)]⟩,
   ⟨20, ⟨h', w', fun i j => i * 100 - j + 7⟩, [(0, 1), (1 / 2, 0)], [(0, 1, 1)]⟩]

/-- The value sampled in the joined map at corner-weights `w` of face `n`, and the layout. -/
def joinedSample (c : Cfg) (items : List (Item Rat)) (n : Nat) (w : Rat × Rat × Rat) : Option Rat :=
  match joinScene c items with
  | .error _ => none
  | .ok J => do
    let f ← J.faces[n]?
    let q ← pixelUv J.uvs f w
    some (sampleUV c J.map q)

example : joinedSample ⟨.bilinear, false, .border⟩ (demo 2 3 4 2) 0 (1 / 4, 1 / 4, 1 / 2) =
    some (sampleUV (K := Rat) ⟨.bilinear, false, .border⟩ ⟨2, 3, fun i j => i * 10 + j + 1⟩ (3 / 4, 1 / 2)) := by decide +kernel

example : joinedSample ⟨.bilinear, false, .zeros⟩ (demo 2 3 4 2) 1 (1, 0, 0) =
    some (sampleUV (K := Rat) ⟨.bilinear, false, .zeros⟩ ⟨4, 2, fun i j => i * 100 - j + 7⟩ (0, 1)) := by decide +kernel

/-- `ZeroDivisionError` occurs: two maps of one texel with `align_corners` (the default). -/
theorem joinScene_zeroDivision (pad : Padding) (mode : Mode) : joinScene (K := Rat) ⟨mode, true, pad⟩ (demo 1 1 1 1) = .error .zeroDivision := by
  have h : packUnique (rects ⟨mode, true, pad⟩ (demo 1 1 1 1)) = some ((1, 2), [⟨0, 1, false, true⟩, ⟨0, 0, false, true⟩]) := by
    simp only [rects, demo]
    decide +kernel
  unfold joinScene
  rw [h]
  simp

/-- In mode `nearest` the sample half way between two texels may change: the hypothesis `Untied` is needed. -/
theorem joinScene_nearest_tie : joinedSample ⟨.nearest, true, .border⟩ (demo 2 2 3 3) 0 (1 / 2, 1 / 2, 0) ≠
    some (sampleUV (K := Rat) ⟨.nearest, true, .border⟩ ⟨2, 2, fun i j => i * 10 + j + 1⟩ (1 / 2, 0)) := by decide +kernel

end P3D.Uv
