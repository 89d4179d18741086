/-
`io/off_io.py`: `_load_off_stream` with `_is_line_empty`, `_count_next_line_periods`, `_read_verts`, `_read_faces`,
`_read_faces_lump`; `_save_off` with `_write_off_data`.

A file is a text (`Text`), read by lines.  `np.loadtxt` is modelled by its documented behaviour: comments are removed,
empty lines skipped, a row with another number of columns than the first is an error, at most `max_rows` rows are read
and the lines after them are left in the file.  `rd` is the reading of a decimal number as float32 and `sc` the
multiplication of a float32 by 1/255; both are arbitrary functions, the proofs state what they use of them.
The errors are all ValueErrors; a loop without end is the other outcome (`hang`).
-/
import Verif.ObjIo
import Verif.FloatRound
import Mathlib.Data.List.TakeWhile
import Mathlib.Data.List.GetD

set_option linter.unusedSectionVars false
set_option linter.unusedSimpArgs false

namespace P3D.Off
open Text Obj

inductive Err
  | value | hang
  deriving DecidableEq, Repr

/-! ## Reading -/

/-- `_is_line_empty`, off_io.py:31-36. -/
def isEmpty (l : Str) : Bool :=
  match strip l with
  | [] => true
  | c :: _ => c == '#'

/-- The next meaningful line and the lines after it; `none` at the end of the file. -/
def findLine (ls : List Str) : Option (Str × List Str) :=
  match ls.dropWhile isEmpty with
  | [] => none
  | l :: r => some (l, r)

def uncomment (l : Str) : Str := l.takeWhile (· ≠ '#')

/-- `_count_next_line_periods`, off_io.py:39-54. -/
def periods (ls : List Str) : Except Err Nat :=
  match findLine ls with
  | none => .error .value
  | some (l, _) => .ok ((uncomment l).count '.')

inductive TErr
  | cols | conv
  deriving DecidableEq, Repr

/-- `np.loadtxt(file, dtype=np.float32, ndmin=2, max_rows=n)`; `c` is the number of columns found so far. -/
def loadtxt (rd : ℚ → ℚ) : Nat → Option Nat → List Str → Except TErr (List (List ℚ) × List Str)
  | 0, _, ls => .ok ([], ls)
  | _ + 1, _, [] => .ok ([], [])
  | n + 1, c, l :: ls =>
    let ws := words (uncomment l)
    if ws = [] then loadtxt rd (n + 1) c ls
    else if c.any (· ≠ ws.length) then .error .cols
    else match ws.mapM parseFloat with
      | none => .error .conv
      | some v => do
        let r ← loadtxt rd n (some ws.length) ls
        .ok (v.map rd :: r.1, r.2)

/-- Conversion to int64. -/
def trunc (x : ℚ) : Int := if x < 0 then ⌈x⌉ else ⌊x⌋

/-- The triangles `(0, i + 1, i + 2)` of all polygons, for each `i`, lines 111-116. -/
def stacked (n : Nat) (idx : List (List Int)) : List Idx3 :=
  (List.range (n - 2)).flatMap fun i => idx.map fun f => (f.getD 0 0, f.getD (i + 1) 0, f.getD (i + 2) 0)

/-- `_read_faces_lump` after the text has been read, off_io.py:92-123: faces, number of colours, colours. -/
def lump (nc : Option Int) (rows : List (List ℚ)) : Except Err (List Idx3 × Int × List (List ℚ)) :=
  let n := trunc ((rows.headD []).getD 0 0)
  let c := ((rows.headD []).length : Int) - 1 - n
  if rows.any fun r => r.getD 0 0 ≠ n then .error .value
  else if n < 3 then .error .value
  else if nc.any (· ≠ c) then .error .value
  else if c ≠ 0 ∧ c ≠ 3 ∧ c ≠ 4 then .error .value
  else .ok (stacked n.toNat (rows.map fun r => ((r.drop 1).take n.toNat).map trunc), c,
    if c = 0 then [] else (List.range (n.toNat - 2)).flatMap fun _ => rows.map fun r => r.drop (1 + n.toNat))

/-- `_read_faces_lump`, off_io.py:57-123; `none` if the faces have different numbers of vertices. -/
def readLump (rd : ℚ → ℚ) (n : Nat) (nc : Option Int) (ls : List Str) :
    Except Err (Option ((List Idx3 × Int × List (List ℚ)) × List Str)) :=
  match loadtxt rd n none ls with
  | .error .cols => if 1 < n then .ok none else .error .value
  | .error .conv => .error .value
  | .ok (rows, rest) =>
    if rows.length ≠ n then .error .value else match lump nc rows with
      | .error e => .error e
      | .ok r => .ok (some (r, rest))

/-- The loop over single faces, off_io.py:150-160. -/
def readEach (rd : ℚ → ℚ) : Nat → Option Int → List Str → Except Err (List Idx3 × List (List ℚ) × Option Int × List Str)
  | 0, nc, ls => .ok ([], [], nc, ls)
  | n + 1, nc, ls => match readLump rd 1 nc ls with
    | .error e => .error e
    | .ok none => .error .value
    | .ok (some (r, rest)) => match readEach rd n (some r.2.1) rest with
      | .error e => .error e
      | .ok s => .ok (r.1 ++ s.1, r.2.2 ++ s.2.1, s.2.2)

/-- `colors * color_scale`. -/
def scale (sc : ℚ → ℚ) (isInt : Bool) (c : List (List ℚ)) : List (List ℚ) := if isInt then c.map (·.map sc) else c

/-- `_read_faces`, off_io.py:126-166. -/
def readFaces (rd sc : ℚ → ℚ) (n : Nat) (ls : List Str) : Except Err (List Idx3 × Option (List (List ℚ)) × List Str) :=
  if n = 0 then .ok ([], none, ls) else do
    let p ← periods ls
    match ← readLump rd n none ls with
    | some (r, rest) => .ok (r.1, if r.2.1 = 0 then none else some (scale sc (p = 0) r.2.2), rest)
    | none =>
      let r ← readEach rd n none ls
      .ok (r.1, if r.2.2.1 = some 0 then none else some (scale sc (p = 0) r.2.1), r.2.2.2)

/-- `_read_verts`, off_io.py:169-198. -/
def readVerts (rd sc : ℚ → ℚ) (n : Nat) (ls : List Str) : Except Err (List (List ℚ) × Option (List (List ℚ)) × List Str) := do
  let p ← periods ls
  match loadtxt rd n none ls with
  | .error _ => .error .value
  | .ok (rows, rest) =>
    let w := (rows.headD []).length
    if rows.length ≠ n then .error .value
    else if w ≠ 3 ∧ w ≠ 6 ∧ w ≠ 7 then .error .value
    else if w = 3 then .ok (rows, none, rest)
    else .ok (rows.map (·.take 3), some (scale sc (p = 3) (rows.map (·.drop 3))), rest)

/-- The dictionary returned by `_load_off_stream`; no faces are the empty list. -/
structure Data where
  verts : List (List ℚ)
  vcols : Option (List (List ℚ))
  faces : List Idx3
  fcols : Option (List (List ℚ))
  deriving DecidableEq, Repr

def lower (c : Char) : Char := if 65 ≤ c.toNat ∧ c.toNat ≤ 90 then Char.ofNat (c.toNat + 32) else c

/-- The line with the counts, off_io.py:232-241; a file without such a line is read for ever. -/
def header (ls : List Str) : Except Err (Str × List Str) :=
  match findLine ls with
  | none => .error .hang
  | some (l, r) =>
    let l' := if (l.take 3).map lower = ['o', 'f', 'f'] then l.drop 3 else l
    if isEmpty l' then
      match findLine r with
      | none => .error .hang
      | some x => .ok x
    else .ok (l', r)

/-- The counts, off_io.py:243-258. -/
def counts (l : Str) : Except Err (Nat × Nat) :=
  let items := words l
  if items.length < 3 then .error .value
  else match parseInt (items.getD 0 []), parseInt (items.getD 1 []) with
    | some v, some f =>
      if (3 < items.length ∧ ¬ startsWith ['#'] (items.getD 3 [])) ∨ v < 0 ∨ f < 0 then .error .value
      else .ok (v.toNat, f.toNat)
    | _, _ => .error .value

/-- `_load_off_stream` on the lines of a file, off_io.py:201-274. -/
def loadLines (rd sc : ℚ → ℚ) (ls : List Str) : Except Err Data := do
  let h ← header ls
  let c ← counts h.1
  let v ← readVerts rd sc c.1 h.2
  let f ← readFaces rd sc c.2 v.2.2
  if f.2.2.all fun l => strip l = [] then .ok ⟨v.1, v.2.1, f.1, f.2.1⟩ else .error .value

def loadOff (rd sc : ℚ → ℚ) (text : Str) : Except Err Data := loadLines rd sc (lines text)

/-! ## Writing -/

/-- Arguments of `_save_off`.  A colour tensor is its number of columns and its rows. -/
structure Args where
  verts : List (ℚ × ℚ × ℚ)
  faces : List Idx3 := []
  vcols : Option (Nat × List (List ℚ)) := none
  fcols : Option (Nat × List (List ℚ)) := none
  decimals : Option Nat := none

/-- Empty colour tensors count as missing, lines 352-355. -/
def present (c : Option (Nat × List (List ℚ))) : Option (Nat × List (List ℚ)) := c.filter fun p => p.2 ≠ []

def vRow (k : Nat) (v : ℚ × ℚ × ℚ) (c : List ℚ) : Str := join [' '] (([v.1, v.2.1, v.2.2] ++ c).map (fmtFloat k))

def fRow (f : Idx3) (c : List ℚ) : Str :=
  join [' '] (([3, f.1, f.2.1, f.2.2].map fmtInt) ++ c.map (fmtFloat 6))

/-- The lines of `_write_off_data`, off_io.py:277-325. -/
def saveLines (a : Args) : List Str :=
  ['o', 'f', 'f'] :: join [' '] [fmtInt a.verts.length, fmtInt a.faces.length, ['0']] ::
    (a.verts.mapIdx fun i v => vRow (a.decimals.getD 6) v (((present a.vcols).map fun p => p.2.getD i []).getD [])) ++
    (a.faces.mapIdx fun i f => fRow f (((present a.fcols).map fun p => p.2.getD i []).getD []))

/-- `_save_off`, off_io.py:328-390. -/
def saveOff (a : Args) : Except Err Str :=
  if (present a.vcols).any fun p => decide (p.1 ≠ 3 ∧ p.1 ≠ 4) || decide (p.2.length ≠ a.verts.length) then .error .value
  else if (present a.fcols).any fun p => decide (p.1 ≠ 3 ∧ p.1 ≠ 4) || decide (p.2.length ≠ a.faces.length) then .error .value
  else .ok ((saveLines a).flatMap (· ++ ['\n']))

/-! ## Proofs -/

theorem fmtInt_float (z : Int) : fmtInt z = fmtFloat 0 z := by
  unfold fmtInt fmtFloat
  have e : (rhe (|(z : ℚ)| * 10 ^ 0)).natAbs = z.natAbs := by
    rw [pow_zero, mul_one, ← Int.cast_abs, rhe_int, Int.natAbs_abs]
  simp only [e]
  simp only [pow_zero, Nat.div_one, if_true, List.append_nil]
  split_ifs with h h' h'
  · rfl
  · exact absurd (by exact_mod_cast h) h'
  · exact absurd (by exact_mod_cast h') h
  · rfl

theorem parseFloat_fmtInt (z : Int) : parseFloat (fmtInt z) = some (z : ℚ) := by
  rw [fmtInt_float, parseFloat_fmtFloat]
  simp [decRound, rhe_int]

theorem count_digits {s : Str} (h : s.all isDigit = true) : s.count '.' = 0 := by
  rw [List.count_eq_zero]
  intro hc
  have := List.all_eq_true.mp h _ hc
  exact absurd this (by decide)

theorem fmtFloat_dots (k : Nat) (x : ℚ) : (fmtFloat k x).count '.' = if k = 0 then 0 else 1 := by
  unfold fmtFloat
  simp only [List.count_append]
  rw [count_digits (fmtNat_spec _).2.1]
  have h1 : (if x < 0 then ['-'] else []).count '.' = 0 := by split_ifs <;> decide
  rw [h1]
  split_ifs with hk
  · rfl
  · rw [List.count_cons_self, count_digits (fmtFixed_spec _ _).2.1]

theorem fmtInt_dots (z : Int) : (fmtInt z).count '.' = 0 := by rw [fmtInt_float, fmtFloat_dots, if_pos rfl]

theorem join_dots (ws : List Str) : (join [' '] ws).count '.' = (ws.map (·.count '.')).sum := by
  induction ws with
  | nil => simp [join, List.intercalate]
  | cons a ws ih =>
    cases ws with
    | nil => simp [join, List.intercalate]
    | cons b ws =>
      rw [join_cons_cons, List.count_append, List.count_append, ih]
      simp

/-- `l` is a row of `loadtxt` with the numbers `v`. -/
def RowLine (l : Str) (v : List ℚ) : Prop := v ≠ [] ∧ (words (uncomment l)).mapM parseFloat = some v

theorem mapM_length {α β : Type} {f : α → Option β} {l : List α} {v : List β} (h : l.mapM f = some v) : v.length = l.length := by
  induction l generalizing v with
  | nil => simp at h; subst h; rfl
  | cons a l ih =>
    rw [List.mapM_cons] at h
    cases ha : f a with
    | none => simp [ha] at h
    | some b =>
      cases hl : l.mapM f with
      | none => simp [ha, hl] at h
      | some t =>
        simp [ha, hl] at h
        subst h
        simp [ih hl]

theorem uncomment_id {l : Str} (h : '#' ∉ l) : uncomment l = l := by
  unfold uncomment
  induction l with
  | nil => rfl
  | cons c l ih =>
    simp only [List.mem_cons, not_or] at h
    rw [List.takeWhile_cons_of_pos (by simpa using fun e => h.1 e.symm), ih h.2]

theorem row_join {ws : List Str} {v : List ℚ} (h : ∀ w ∈ ws, IsWord w ∧ '#' ∉ w) (hp : ws.mapM parseFloat = some v) (hv : v ≠ []) :
    RowLine (join [' '] ws) v := by
  refine ⟨hv, ?_⟩
  rw [uncomment_id, words_join fun w hw => (h w hw).1, hp]
  intro hc
  rcases mem_join hc with hc | ⟨w, hw, hc⟩
  · simp at hc
  · exact (h w hw).2 hc

theorem RowLine.len {l : Str} {v : List ℚ} (h : RowLine l v) : (words (uncomment l)).length = v.length :=
  (mapM_length h.2).symm

theorem RowLine.ne {l : Str} {v : List ℚ} (h : RowLine l v) : words (uncomment l) ≠ [] := by
  intro e
  have := h.len
  rw [e] at this
  exact h.1 (List.eq_nil_of_length_eq_zero this.symm)

theorem loadtxt_ok (rd : ℚ → ℚ) {ls : List Str} {vs : List (List ℚ)} (h : List.Forall₂ RowLine ls vs) {c : Nat}
    (hc : ∀ v ∈ vs, v.length = c) {co : Option Nat} (hco : ∀ d, co = some d → d = c) (rest : List Str) :
    loadtxt rd vs.length co (ls ++ rest) = .ok (vs.map (·.map rd), rest) := by
  induction h generalizing co with
  | nil => simp [loadtxt]
  | @cons l v ls vs hl h ih =>
    simp only [List.mem_cons, forall_eq_or_imp] at hc
    simp only [List.length_cons, List.cons_append, loadtxt]
    rw [if_neg hl.ne, if_neg]
    · rw [hl.2]
      simp only
      rw [ih hc.2 (co := some (words (uncomment l)).length) (by
        intro d hd
        simp only [Option.some.injEq] at hd
        rw [← hd, hl.len, hc.1])]
      rfl
    · rw [Option.any_eq_true]
      rintro ⟨d, hd, hne⟩
      have := hco d hd
      rw [hl.len, hc.1] at hne
      simp [this] at hne

theorem loadtxt_cols (rd : ℚ → ℚ) {ls : List Str} {vs : List (List ℚ)} (h : List.Forall₂ RowLine ls vs) {c : Nat}
    (hc : ∃ v ∈ vs, v.length ≠ c) (rest : List Str) :
    loadtxt rd vs.length (some c) (ls ++ rest) = .error .cols := by
  induction h with
  | nil => simp at hc
  | @cons l v ls vs hl h ih =>
    simp only [List.length_cons, List.cons_append, loadtxt]
    rw [if_neg hl.ne]
    by_cases e : v.length = c
    · rw [if_neg (by simp [hl.len, e]), hl.2]
      simp only
      rw [hl.len, e, ih]
      · rfl
      · obtain ⟨w, hw, hne⟩ := hc
        rcases List.mem_cons.mp hw with rfl | hw
        · exact absurd e hne
        · exact ⟨w, hw, hne⟩
    · rw [if_pos (by simp [hl.len]; exact fun h => e h.symm)]

/-- Different numbers of columns. -/
theorem loadtxt_mixed (rd : ℚ → ℚ) {ls : List Str} {vs : List (List ℚ)} (h : List.Forall₂ RowLine ls vs)
    (hc : ¬ ∃ c, ∀ v ∈ vs, v.length = c) (rest : List Str) : loadtxt rd vs.length none (ls ++ rest) = .error .cols := by
  cases h with
  | nil => exact absurd ⟨0, by simp⟩ hc
  | @cons l v ls vs hl h =>
    simp only [List.length_cons, List.cons_append, loadtxt]
    rw [if_neg hl.ne, if_neg (by simp), hl.2]
    simp only
    rw [hl.len, loadtxt_cols rd h]
    · rfl
    · by_contra hcon
      push Not at hcon
      exact hc ⟨v.length, by simpa using hcon⟩

/-! ### Faces -/

/-- A face of the file: its vertex indices and its colour. -/
structure Poly where
  idx : List Int
  col : List ℚ
  deriving DecidableEq, Repr

def Poly.row (p : Poly) : List ℚ := (p.idx.length : ℚ) :: p.idx.map (fun (z : Int) => (z : ℚ)) ++ p.col

/-- The triangles of a polygon, in order (specification). -/
def Poly.tris (p : Poly) : List Idx3 :=
  (List.range (p.idx.length - 2)).map fun i => (p.idx.getD 0 0, p.idx.getD (i + 1) 0, p.idx.getD (i + 2) 0)

/-- What is used of float32: integers up to `2 ^ 24` are exact. -/
def IntExact (rd : ℚ → ℚ) : Prop := ∀ n : Int, |n| ≤ 2 ^ 24 → rd n = n

/-- A face that the format allows. -/
structure Poly.Ok (p : Poly) (c : Nat) : Prop where
  three : 3 ≤ p.idx.length
  col : p.col.length = c
  small : ∀ z ∈ p.idx, |z| ≤ 2 ^ 24
  size : p.idx.length ≤ 2 ^ 24

theorem trunc_int (z : Int) : trunc z = z := by unfold trunc; split_ifs <;> simp

theorem poly_row {rd : ℚ → ℚ} (hr : IntExact rd) {p : Poly} {c : Nat} (h : p.Ok c) :
    p.row.map rd = (p.idx.length : ℚ) :: p.idx.map (fun (z : Int) => (z : ℚ)) ++ p.col.map rd := by
  unfold Poly.row
  simp only [List.map_cons, List.map_append, List.cons_append, List.map_map]
  have e1 : rd (p.idx.length : ℚ) = p.idx.length := by
    have := hr (p.idx.length : Int) (by rw [abs_of_nonneg (by positivity)]; exact_mod_cast h.size)
    exact_mod_cast this
  have e2 : p.idx.map (rd ∘ fun (z : Int) => (z : ℚ)) = p.idx.map fun (z : Int) => (z : ℚ) :=
    List.map_congr_left fun z hz => hr z (h.small z hz)
  rw [e1, e2]

theorem lump_spec {rd : ℚ → ℚ} (hr : IntExact rd) {ps : List Poly} (hne : ps ≠ []) {c n : Nat} (h : ∀ p ∈ ps, p.Ok c)
    (hn : ∀ p ∈ ps, p.idx.length = n) (hc : c = 0 ∨ c = 3 ∨ c = 4) {nc : Option Int} (hnc : ∀ d, nc = some d → d = c) :
    lump nc (ps.map fun p => p.row.map rd) = .ok (stacked n (ps.map (·.idx)), c,
      if (c : Int) = 0 then [] else (List.range (n - 2)).flatMap fun _ => ps.map fun p => p.col.map rd) := by
  obtain ⟨p0, ps', rfl⟩ := List.exists_cons_of_ne_nil hne
  have h0 := h p0 List.mem_cons_self
  have hn0 := hn p0 List.mem_cons_self
  have e0 : trunc ((((p0 :: ps').map fun p => p.row.map rd).headD []).getD 0 0) = n := by
    simp only [List.map_cons, List.headD_cons, poly_row hr h0, List.cons_append, List.getD_cons_zero, hn0]
    exact_mod_cast trunc_int n
  have e1 : (((((p0 :: ps').map fun p => p.row.map rd).headD []).length : Int)) - 1 - n = c := by
    simp only [List.map_cons, List.headD_cons, List.length_map, Poly.row, List.cons_append, List.length_cons, List.length_append,
      h0.col, hn0]
    push_cast; ring
  have h3 := h0.three
  unfold lump
  simp only [e0, e1]
  rw [if_neg, if_neg (by omega), if_neg, if_neg (by omega)]
  · congr 2
    · simp only [Int.toNat_natCast, List.map_map]
      congr 1
      apply List.map_congr_left
      intro p hp
      simp only [Function.comp, poly_row hr (h p hp), List.cons_append, List.drop_succ_cons, List.drop_zero]
      rw [List.take_left' (by simp [hn p hp]), List.map_map]
      conv_rhs => rw [← List.map_id p.idx]
      exact List.map_congr_left fun z _ => trunc_int z
    · congr 1
      simp only [Int.toNat_natCast]
      congr 2
      funext _
      simp only [Int.toNat_natCast, List.map_map]
      apply List.map_congr_left
      intro p hp
      simp only [Function.comp, poly_row hr (h p hp), List.cons_append]
      rw [add_comm, List.drop_succ_cons, List.drop_left' (by simp [hn p hp])]
  · rw [Option.any_eq_true]
    rintro ⟨d, hd, hne⟩
    simp [hnc d hd] at hne
  · rw [List.any_eq_true]
    rintro ⟨r, hr', hne⟩
    obtain ⟨p, hp, rfl⟩ := List.mem_map.mp hr'
    simp only [poly_row hr (h p hp), List.cons_append, List.getD_cons_zero, hn p hp, ne_eq, decide_eq_true_eq] at hne
    exact hne (by simp)

theorem isEmpty_iff (l : Str) : isEmpty l = true ↔ words (uncomment l) = [] := by
  have h1 : isEmpty l = match l.dropWhile isSpace with | [] => true | c :: _ => c == '#' := by
    unfold isEmpty strip
    rcases e : l.dropWhile isSpace with _ | ⟨c, r⟩
    · simp
    · have hc : isSpace c = false := by
        have := List.head_dropWhile_not isSpace (l := l) (by rw [e]; simp)
        simpa [e] using this
      rcases e2 : ((c :: r).reverse.dropWhile isSpace).reverse with _ | ⟨d, q⟩
      · have : (c :: r).reverse.dropWhile isSpace = [] := by simpa using e2
        have := List.dropWhile_eq_nil_iff.mp this c (by simp)
        rw [hc] at this; exact absurd this (by simp)
      · have hs : (c :: r).reverse.dropWhile isSpace <:+ (c :: r).reverse := List.dropWhile_suffix _
        have hp := List.reverse_prefix.mpr hs
        rw [e2, List.reverse_reverse] at hp
        obtain ⟨t, ht⟩ := hp
        simp only [List.cons_append, List.cons.injEq] at ht
        simp [ht.1]
  rw [h1]
  induction l with
  | nil => simp [uncomment, words, splitBy]
  | cons c l ih =>
    by_cases hc : isSpace c = true
    · have hne : c ≠ '#' := by rintro rfl; exact absurd hc (by decide)
      have e : words (uncomment (c :: l)) = words (uncomment l) := by
        unfold uncomment
        rw [List.takeWhile_cons_of_pos (by simpa using hne)]
        unfold words
        rw [splitBy, if_pos hc]
        simp
      rw [List.dropWhile_cons_of_pos hc, e]
      refine ih ?_
      unfold isEmpty strip at h1 ⊢
      rw [List.dropWhile_cons_of_pos hc] at h1
      exact h1
    · rw [List.dropWhile_cons_of_neg hc]
      simp only [beq_iff_eq]
      constructor
      · rintro rfl
        simp [uncomment, words, splitBy]
      · intro h
        by_contra hne
        refine words_ne_nil (s := uncomment (c :: l)) (c := c) ?_ (by simpa using hc) h
        unfold uncomment
        rw [List.takeWhile_cons_of_pos (by simpa using hne)]
        exact List.mem_cons_self

theorem RowLine.notEmpty {l : Str} {v : List ℚ} (h : RowLine l v) : isEmpty l = false := by
  by_contra hc
  exact h.ne ((isEmpty_iff l).mp (by simpa using hc))

theorem findLine_cons {l : Str} (h : isEmpty l = false) (r : List Str) : findLine (l :: r) = some (l, r) := by
  unfold findLine
  rw [List.dropWhile_cons_of_neg (by simp [h])]

theorem periods_cons {l : Str} {v : List ℚ} (h : RowLine l v) (r : List Str) : periods (l :: r) = .ok ((uncomment l).count '.') := by
  unfold periods
  rw [findLine_cons h.notEmpty]

theorem stacked_one (p : Poly) : stacked p.idx.length [p.idx] = p.tris := by
  unfold stacked Poly.tris
  simp only [List.map_cons, List.map_nil]
  rw [← List.flatMap_pure_eq_map]
  rfl

theorem poly_len (p : Poly) : p.row.length = p.idx.length + p.col.length + 1 := by simp [Poly.row]

theorem readLump_same {rd : ℚ → ℚ} (hr : IntExact rd) {ls : List Str} {ps : List Poly} (hl : List.Forall₂ (fun l p => RowLine l p.row) ls ps)
    (hne : ps ≠ []) {c n : Nat} (h : ∀ p ∈ ps, p.Ok c) (hn : ∀ p ∈ ps, p.idx.length = n) (hc : c = 0 ∨ c = 3 ∨ c = 4)
    {nc : Option Int} (hnc : ∀ d, nc = some d → d = c) (rest : List Str) :
    readLump rd ps.length nc (ls ++ rest) = .ok (some ((stacked n (ps.map (·.idx)), (c : Int),
      if (c : Int) = 0 then [] else (List.range (n - 2)).flatMap fun _ => ps.map fun p => p.col.map rd), rest)) := by
  have h2 : List.Forall₂ RowLine ls (ps.map Poly.row) := by
    rw [List.forall₂_map_right_iff]; exact hl
  have := loadtxt_ok rd h2 (c := n + c + 1) (by
    intro v hv
    obtain ⟨p, hp, rfl⟩ := List.mem_map.mp hv
    rw [poly_len, hn p hp, (h p hp).col]) (co := none) (by simp) rest
  rw [List.length_map, List.map_map] at this
  unfold readLump
  rw [this]
  simp only [List.length_map]
  rw [if_neg (by simp)]
  have hL := lump_spec hr hne h hn hc hnc
  simp only [Function.comp_def]
  rw [hL]

theorem readEach_spec {rd : ℚ → ℚ} (hr : IntExact rd) {ls : List Str} {ps : List Poly} (hl : List.Forall₂ (fun l p => RowLine l p.row) ls ps)
    {c : Nat} (h : ∀ p ∈ ps, p.Ok c) (hc : c = 0 ∨ c = 3 ∨ c = 4)
    {nc : Option Int} (hnc : ∀ d, nc = some d → d = c) (rest : List Str) :
    readEach rd ps.length nc (ls ++ rest) = .ok (ps.flatMap Poly.tris,
      ps.flatMap (fun p => if (c : Int) = 0 then [] else List.replicate (p.idx.length - 2) (p.col.map rd)),
      if ps = [] then nc else some (c : Int), rest) := by
  induction hl generalizing nc with
  | nil => simp [readEach]
  | @cons l p ls ps hp hl ih =>
    simp only [List.mem_cons, forall_eq_or_imp] at h
    have h1 := readLump_same hr (ls := [l]) (ps := [p]) (by simpa using hp) (by simp) (c := c) (n := p.idx.length)
      (by simpa using h.1) (by simp) hc hnc (ls ++ rest)
    simp only [List.length_cons, List.length_nil, zero_add, List.cons_append, List.nil_append, List.map_cons, List.map_nil] at h1
    simp only [List.length_cons, List.cons_append, readEach, h1]
    rw [ih h.2 (nc := some (c : Int)) (by simp)]
    simp only [stacked_one, List.flatMap_cons, if_neg (List.cons_ne_nil _ _)]
    congr 3
    · congr 1
      split_ifs
      · rfl
      · exact (List.flatMap_pure_eq_map (fun _ => p.col.map rd) _).trans (by simp)
    · split_ifs <;> rfl

theorem stack_perm {α β γ : Type} (f : α → β → γ) (L : List α) (ps : List β) :
    (L.flatMap fun i => ps.map (f i)).Perm (ps.flatMap fun p => L.map fun i => f i p) := by
  induction L with
  | nil => simp
  | cons a L ih =>
    simp only [List.flatMap_cons, List.map_cons]
    exact (List.Perm.append_left _ ih).trans (List.map_append_flatMap_perm ps (f a) fun p => L.map fun i => f i p)

theorem stack_zip {α β γ δ : Type} (f : α → β → γ) (g : β → δ) (L : List α) (ps : List β) :
    (L.flatMap fun i => ps.map (f i)).zip (L.flatMap fun _ => ps.map g) = L.flatMap fun i => ps.map fun p => (f i p, g p) := by
  induction L with
  | nil => rfl
  | cons a L ih =>
    simp only [List.flatMap_cons]
    rw [List.zip_append (by simp), ih, List.zip_map']

/-- The colour of a face as it is returned: scaled by 1/255 if the first face line has no decimal point. -/
def tint (rd sc : ℚ → ℚ) (ls : List Str) (p : Poly) : List ℚ :=
  if (uncomment (ls.headD [])).count '.' = 0 then (p.col.map rd).map sc else p.col.map rd

theorem periods_head {ls : List Str} {vs : List (List ℚ)} (h : List.Forall₂ RowLine ls vs) (hne : vs ≠ []) (rest : List Str) :
    periods (ls ++ rest) = .ok ((uncomment (ls.headD [])).count '.') := by
  cases h with
  | nil => exact absurd rfl hne
  | cons hl h => rw [List.cons_append, periods_cons hl]; rfl

theorem scale_map {α : Type} (sc : ℚ → ℚ) (b : Bool) (l : List α) (f : α → List ℚ) :
    scale sc b (l.map f) = l.map fun a => if b then (f a).map sc else f a := by
  unfold scale
  cases b <;> simp

theorem scale_flatMap {α : Type} (sc : ℚ → ℚ) (b : Bool) (L : List α) (g : α → List (List ℚ)) :
    scale sc b (L.flatMap g) = L.flatMap fun i => scale sc b (g i) := by
  unfold scale
  cases b
  · rfl
  · simp [List.map_flatMap]

theorem readFaces_same {rd sc : ℚ → ℚ} (hr : IntExact rd) {ls : List Str} {ps : List Poly}
    (hl : List.Forall₂ (fun l p => RowLine l p.row) ls ps) (hne : ps ≠ []) {c n : Nat} (h : ∀ p ∈ ps, p.Ok c)
    (hn : ∀ p ∈ ps, p.idx.length = n) (hc : c = 0 ∨ c = 3 ∨ c = 4) (rest : List Str) :
    readFaces rd sc ps.length (ls ++ rest) = .ok (stacked n (ps.map (·.idx)),
      if c = 0 then none else some ((List.range (n - 2)).flatMap fun _ => ps.map (tint rd sc ls)), rest) := by
  have h2 : List.Forall₂ RowLine ls (ps.map Poly.row) := by
    rw [List.forall₂_map_right_iff]; exact hl
  unfold readFaces
  rw [if_neg (by simpa using hne), periods_head h2 (by simpa using hne)]
  simp only [bind, Except.bind, readLump_same hr hl hne h hn hc (nc := none) (by simp) rest]
  by_cases h0 : c = 0
  · subst h0; simp
  · have h0' : ¬ (c : Int) = 0 := by exact_mod_cast h0
    simp only [if_neg h0, if_neg h0']
    rw [scale_flatMap]
    simp only [scale_map, decide_eq_true_eq]
    rfl

theorem readFaces_mixed {rd sc : ℚ → ℚ} (hr : IntExact rd) {ls : List Str} {ps : List Poly}
    (hl : List.Forall₂ (fun l p => RowLine l p.row) ls ps) {c : Nat} (h : ∀ p ∈ ps, p.Ok c)
    (hn : ¬ ∃ n, ∀ p ∈ ps, p.idx.length = n) (hc : c = 0 ∨ c = 3 ∨ c = 4) (rest : List Str) :
    readFaces rd sc ps.length (ls ++ rest) = .ok (ps.flatMap Poly.tris,
      if c = 0 then none else some (ps.flatMap fun p => List.replicate (p.idx.length - 2) (tint rd sc ls p)), rest) := by
  have h2 : List.Forall₂ RowLine ls (ps.map Poly.row) := by
    rw [List.forall₂_map_right_iff]; exact hl
  have hne : ps ≠ [] := by rintro rfl; exact hn ⟨0, by simp⟩
  have hlen : 1 < ps.length := by
    by_contra hcon
    obtain ⟨p, rest', rfl⟩ := List.exists_cons_of_ne_nil hne
    cases rest' with
    | nil => exact hn ⟨p.idx.length, by simp⟩
    | cons a b => simp at hcon
  have hcol := loadtxt_mixed rd h2 (by
    rintro ⟨d, hd⟩
    apply hn
    refine ⟨d - c - 1, fun p hp => ?_⟩
    have := hd _ (List.mem_map_of_mem hp)
    rw [poly_len, (h p hp).col] at this
    omega) rest
  rw [List.length_map] at hcol
  have hlump : readLump rd ps.length none (ls ++ rest) = .ok none := by
    unfold readLump
    rw [hcol]
    simp only [if_pos hlen]
  unfold readFaces
  rw [if_neg (by simpa using hne), periods_head h2 (by simpa using hne)]
  simp only [bind, Except.bind, hlump, readEach_spec hr hl h hc (nc := none) (by simp) rest, if_neg hne, Option.some.injEq]
  by_cases h0 : c = 0
  · subst h0; simp
  · have h0' : ¬ (c : Int) = 0 := by exact_mod_cast h0
    simp only [if_neg h0, if_neg h0']
    rw [scale_flatMap]
    congr 4
    congr 1
    funext p
    unfold scale tint
    split_ifs with a b b
    · simp
    · exact absurd (of_decide_eq_true a) b
    · exact absurd (decide_eq_true b) a
    · rfl

/-- **C65 (polygons).** The faces of a file, of any numbers of vertices, are returned as the fan triangles of each of
them, each with the colour of its face; the order is that of the file unless all faces have the same size above 3. -/
theorem readFaces_spec {rd sc : ℚ → ℚ} (hr : IntExact rd) {ls : List Str} {ps : List Poly}
    (hl : List.Forall₂ (fun l p => RowLine l p.row) ls ps) (hne : ps ≠ []) {c : Nat} (h : ∀ p ∈ ps, p.Ok c)
    (hc : c = 0 ∨ c = 3 ∨ c = 4) (rest : List Str) :
    ∃ fs cs, readFaces rd sc ps.length (ls ++ rest) = .ok (fs, cs, rest) ∧ fs.Perm (ps.flatMap Poly.tris) ∧
      (c = 0 → cs = none) ∧
      (c ≠ 0 → ∃ cl, cs = some cl ∧ cl.length = fs.length ∧
        (fs.zip cl).Perm (ps.flatMap fun p => p.tris.map fun t => (t, tint rd sc ls p))) ∧
      ((∀ p ∈ ps, p.idx.length = 3) ∨ (¬ ∃ n, ∀ p ∈ ps, p.idx.length = n) → fs = ps.flatMap Poly.tris) := by
  by_cases hn : ∃ n, ∀ p ∈ ps, p.idx.length = n
  · obtain ⟨n, hn⟩ := hn
    have e1 : stacked n (ps.map (·.idx)) = (List.range (n - 2)).flatMap fun i => ps.map fun p =>
        (p.idx.getD 0 0, p.idx.getD (i + 1) 0, p.idx.getD (i + 2) 0) := by
      unfold stacked
      simp only [List.map_map]
      rfl
    have e2 : ps.flatMap Poly.tris = ps.flatMap fun p => (List.range (n - 2)).map fun i =>
        (p.idx.getD 0 0, p.idx.getD (i + 1) 0, p.idx.getD (i + 2) 0) := by
      rw [List.flatMap_congr]
      intro p hp
      rw [Poly.tris, hn p hp]
    refine ⟨_, _, readFaces_same hr hl hne h hn hc rest, ?_, ?_, ?_, ?_⟩
    · rw [e1, e2]; exact stack_perm _ _ _
    · intro h0; rw [if_pos h0]
    · intro h0
      rw [if_neg h0]
      refine ⟨_, rfl, ?_, ?_⟩
      · rw [e1]; simp [List.length_flatMap]
      · rw [e1, stack_zip]
        refine (stack_perm _ _ _).trans ?_
        rw [List.flatMap_congr (g := fun p => p.tris.map fun t => (t, tint rd sc ls p))]
        intro p hp
        rw [Poly.tris, hn p hp, List.map_map]
        rfl
    · rintro (h3 | h3)
      · have : n = 3 := by
          obtain ⟨p, ps', rfl⟩ := List.exists_cons_of_ne_nil hne
          rw [← hn p List.mem_cons_self, h3 p List.mem_cons_self]
        subst this
        rw [e1, e2]
        simp [List.range_succ, List.flatMap_singleton']
        exact (List.flatMap_pure_eq_map _ _).symm
      · exact absurd ⟨n, hn⟩ h3
  · refine ⟨_, _, readFaces_mixed hr hl h hn hc rest, List.Perm.refl _, ?_, ?_, fun _ => rfl⟩
    · intro h0; rw [if_pos h0]
    · intro h0
      rw [if_neg h0]
      refine ⟨_, rfl, ?_, ?_⟩
      · simp [List.length_flatMap, Poly.tris]
      · clear hn hne h hc
        have : ∀ qs : List Poly, (qs.flatMap Poly.tris).zip (qs.flatMap fun p => List.replicate (p.idx.length - 2) (tint rd sc ls p))
            = qs.flatMap fun p => p.tris.map fun t => (t, tint rd sc ls p) := by
          intro qs
          induction qs with
          | nil => rfl
          | cons q qs ih =>
            simp only [List.flatMap_cons]
            rw [List.zip_append (by simp [Poly.tris]), ih]
            congr 1
            rw [show q.idx.length - 2 = q.tris.length by simp [Poly.tris]]
            generalize q.tris = T
            induction T with
            | nil => rfl
            | cons t T ih => simp [List.replicate_succ, ih]
        rw [this]

/-! ### Round trip -/

theorem mapM_parse (k : Nat) (l : List ℚ) : (l.map (fmtFloat k)).mapM parseFloat = some (l.map (decRound k)) := by
  induction l with
  | nil => rfl
  | cons a l ih => simp [List.mapM_cons, parseFloat_fmtFloat, ih]

theorem mapM_parse_int (l : List Int) : (l.map fmtInt).mapM parseFloat = some (l.map fun (z : Int) => (z : ℚ)) := by
  induction l with
  | nil => rfl
  | cons a l ih => simp [List.mapM_cons, parseFloat_fmtInt, ih]

theorem mapM_append_some {α β : Type} {f : α → Option β} {a b : List α} {x y : List β} (ha : a.mapM f = some x) (hb : b.mapM f = some y) :
    (a ++ b).mapM f = some (x ++ y) := by
  rw [List.mapM_append, ha]
  simp [hb]

theorem vRow_line (k : Nat) (v : ℚ × ℚ × ℚ) (c : List ℚ) :
    RowLine (vRow k v c) (([v.1, v.2.1, v.2.2] ++ c).map (decRound k)) ∧
    (uncomment (vRow k v c)).count '.' = if k = 0 then 0 else 3 + c.length := by
  have hw : ∀ w ∈ ([v.1, v.2.1, v.2.2] ++ c).map (fmtFloat k), IsWord w ∧ '#' ∉ w := by
    intro w hw
    obtain ⟨x, _, rfl⟩ := List.mem_map.mp hw
    exact ⟨(fmtFloat_word k x).1, (fmtFloat_word k x).2.2.2⟩
  refine ⟨row_join hw (mapM_parse k _) (by simp), ?_⟩
  rw [uncomment_id, vRow, join_dots, List.map_map]
  · have : ∀ l : List ℚ, (l.map ((fun w : Str => w.count '.') ∘ fmtFloat k)).sum = if k = 0 then 0 else l.length := by
      intro l
      induction l with
      | nil => simp
      | cons x l ih =>
        simp only [List.map_cons, List.sum_cons, Function.comp, fmtFloat_dots, List.length_cons]
        rw [ih]
        split_ifs <;> omega
    rw [this]
    split_ifs
    · rfl
    · simp; omega
  · intro hc
    rcases mem_join hc with hc | ⟨w, hw', hc⟩
    · simp at hc
    · exact (hw w hw').2 hc

theorem fRow_line (f : Idx3) (c : List ℚ) :
    RowLine (fRow f c) (Poly.row ⟨[f.1, f.2.1, f.2.2], c.map (decRound 6)⟩) ∧ (uncomment (fRow f c)).count '.' = c.length := by
  have hw : ∀ w ∈ ([3, f.1, f.2.1, f.2.2].map fmtInt) ++ c.map (fmtFloat 6), IsWord w ∧ '#' ∉ w := by
    intro w hw
    rcases List.mem_append.mp hw with hw | hw
    · obtain ⟨x, _, rfl⟩ := List.mem_map.mp hw
      exact ⟨(fmtInt_word x).1, (fmtInt_word x).2.2.2⟩
    · obtain ⟨x, _, rfl⟩ := List.mem_map.mp hw
      exact ⟨(fmtFloat_word 6 x).1, (fmtFloat_word 6 x).2.2.2⟩
  refine ⟨row_join hw ?_ (by simp [Poly.row]), ?_⟩
  · rw [mapM_append_some (mapM_parse_int _) (mapM_parse 6 c)]
    simp [Poly.row]
  · rw [uncomment_id, fRow, join_dots, List.map_append, List.sum_append, List.map_map, List.map_map]
    · have : ∀ l : List ℚ, (l.map ((fun w : Str => w.count '.') ∘ fmtFloat 6)).sum = l.length := by
        intro l
        induction l with
        | nil => simp
        | cons x l ih =>
          simp only [List.map_cons, List.sum_cons, Function.comp, fmtFloat_dots, List.length_cons]
          rw [ih]
          norm_num; omega
      rw [this]
      simp [fmtInt_dots]
    · intro hc
      rcases mem_join hc with hc | ⟨w, hw', hc⟩
      · simp at hc
      · exact (hw w hw').2 hc

theorem row_nl {ws : List Str} (h : ∀ w ∈ ws, '\n' ∉ w) : '\n' ∉ join [' '] ws := by
  intro hc
  rcases mem_join hc with hc | ⟨w, hw', hc⟩
  · simp at hc
  · exact h w hw' hc

theorem saveLines_nl (a : Args) : ∀ w ∈ saveLines a, '\n' ∉ w := by
  intro w hw
  unfold saveLines at hw
  simp only [List.cons_append, List.mem_cons, List.mem_append, List.mem_mapIdx] at hw
  rcases hw with rfl | rfl | ⟨i, hi, rfl⟩ | ⟨i, hi, rfl⟩
  · decide
  · apply row_nl
    intro w hw
    simp only [List.mem_cons, List.not_mem_nil, or_false] at hw
    rcases hw with rfl | rfl | rfl
    · exact (fmtInt_word _).2.2.1
    · exact (fmtInt_word _).2.2.1
    · decide
  · apply row_nl
    intro w hw
    obtain ⟨x, _, rfl⟩ := List.mem_map.mp hw
    exact (fmtFloat_word _ _).2.2.1
  · apply row_nl
    intro w hw
    rcases List.mem_append.mp hw with hw | hw
    · obtain ⟨x, _, rfl⟩ := List.mem_map.mp hw
      exact (fmtInt_word _).2.2.1
    · obtain ⟨x, _, rfl⟩ := List.mem_map.mp hw
      exact (fmtFloat_word _ _).2.2.1

/-- Rows of a colour tensor. -/
def Rect (c : Option (Nat × List (List ℚ))) : Prop := ∀ p, c = some p → ∀ r ∈ p.2, r.length = p.1

/-- What `_load_off_stream` returns for the file of `_save_off`. -/
def expected (rd : ℚ → ℚ) (a : Args) : Data where
  verts := a.verts.map fun v => [v.1, v.2.1, v.2.2].map fun x => rd (decRound (a.decimals.getD 6) x)
  vcols := (present a.vcols).map fun p => p.2.map fun r => r.map fun x => rd (decRound (a.decimals.getD 6) x)
  faces := a.faces
  fcols := (present a.fcols).map fun p => p.2.map fun r => r.map fun x => rd (decRound 6 x)

theorem header_saved {L : Str} (h : isEmpty L = false) (r : List Str) : header (['o', 'f', 'f'] :: L :: r) = .ok (L, r) := by
  have h1 : findLine (['o', 'f', 'f'] :: L :: r) = some (['o', 'f', 'f'], L :: r) := findLine_cons (by decide) _
  unfold header
  simp only [h1]
  rw [if_pos (by decide), findLine_cons h]

theorem counts_saved (v f : Nat) : counts (join [' '] [fmtInt v, fmtInt f, ['0']]) = .ok (v, f) ∧
    isEmpty (join [' '] [fmtInt v, fmtInt f, ['0']]) = false := by
  have hw : words (join [' '] [fmtInt v, fmtInt f, ['0']]) = [fmtInt v, fmtInt f, ['0']] := by
    apply words_join
    intro w hw
    simp only [List.mem_cons, List.not_mem_nil, or_false] at hw
    rcases hw with rfl | rfl | rfl
    · exact (fmtInt_word _).1
    · exact (fmtInt_word _).1
    · exact ⟨by simp, by decide⟩
  constructor
  · unfold counts
    simp only [hw]
    rw [if_neg (by simp)]
    simp only [List.getD_cons_zero, List.getD_cons_succ, parseInt_fmtInt]
    rw [if_neg (by simp)]
    simp
  · by_contra hc
    have := (isEmpty_iff _).mp (by simpa using hc)
    rw [uncomment_id, hw] at this
    · simp at this
    · intro hc
      rcases mem_join hc with hc | ⟨w, hw', hc⟩
      · simp at hc
      · simp only [List.mem_cons, List.not_mem_nil, or_false] at hw'
        rcases hw' with rfl | rfl | rfl
        · exact (fmtInt_word _).2.2.2 hc
        · exact (fmtInt_word _).2.2.2 hc
        · exact absurd hc (by decide)

/-- The colour rows as a function of the index. -/
def colAt (c : Option (Nat × List (List ℚ))) (i : Nat) : List ℚ := (c.map fun p => p.2.getD i []).getD []

def width (c : Option (Nat × List (List ℚ))) : Nat := (c.map (·.1)).getD 0

theorem colAt_len {c : Option (Nat × List (List ℚ))} (hr : Rect c) {n : Nat} (hl : ∀ p, c = some p → p.2.length = n) {i : Nat} (hi : i < n) :
    (colAt c i).length = width c := by
  cases c with
  | none => rfl
  | some p =>
    have := hl p rfl
    simp only [colAt, width, Option.map_some, Option.getD_some]
    rw [List.getD_eq_getElem _ _ (by omega)]
    exact hr p rfl _ (List.getElem_mem _)

theorem forall₂_mapIdx {α β γ : Type} {R : β → γ → Prop} (l : List α) (f : Nat → α → β) (g : Nat → α → γ)
    (h : ∀ i a, i < l.length → R (f i a) (g i a)) : List.Forall₂ R (l.mapIdx f) (l.mapIdx g) := by
  rw [List.forall₂_iff_get]
  refine ⟨by simp, ?_⟩
  intro i h1 h2
  simp only [List.get_eq_getElem, List.getElem_mapIdx]
  exact h _ _ (by simpa using h1)

theorem mapIdx_col {α β : Type} (l : List α) {c : Option (Nat × List (List ℚ))} {p : Nat × List (List ℚ)} (hc : c = some p)
    (hl : p.2.length = l.length) (f : List ℚ → β) : (l.mapIdx fun i _ => f (colAt c i)) = p.2.map f := by
  subst hc
  apply List.ext_getElem
  · simp [hl]
  · intro i h1 h2
    have : i < p.2.length := by simpa using h2
    simp [colAt, this]

/-- **C65 (OFF round trip).** Whatever `_save_off` writes for a mesh with at least one vertex and indices up to `2 ^ 24`
is loaded as the same faces, with vertices and vertex colours rounded to the decimal places (6 by default) and face
colours rounded to 6 decimal places. -/
theorem off_roundtrip {rd sc : ℚ → ℚ} (hr : IntExact rd) {a : Args} (hv : a.verts ≠ []) (hf : ∀ f ∈ a.faces, ∀ z ∈ [f.1, f.2.1, f.2.2], |z| ≤ 2 ^ 24)
    (hvc : Rect a.vcols) (hfc : Rect a.fcols) {t : Str} (ht : saveOff a = .ok t) : loadOff rd sc t = .ok (expected rd a) := by
  unfold saveOff at ht
  split_ifs at ht with h1 h2
  simp only [Except.ok.injEq] at ht
  subst ht
  set k := a.decimals.getD 6 with hk
  set vc := present a.vcols with hvcd
  set fc := present a.fcols with hfcd
  have hpr : ∀ c : Option (Nat × List (List ℚ)), Rect c → Rect (present c) := by
    intro c h p hp
    exact h p (by unfold present at hp; rw [Option.filter_eq_some_iff] at hp; exact hp.1)
  have hvc' : Rect vc := hpr _ hvc
  have hfc' : Rect fc := hpr _ hfc
  have hvl : ∀ p, vc = some p → (p.1 = 3 ∨ p.1 = 4) ∧ p.2.length = a.verts.length := by
    intro p hp
    rw [hp] at h1
    simp only [Option.any_some, Bool.or_eq_true, decide_eq_true_eq, not_or] at h1
    exact ⟨by omega, by simpa using h1.2⟩
  have hfl : ∀ p, fc = some p → (p.1 = 3 ∨ p.1 = 4) ∧ p.2.length = a.faces.length := by
    intro p hp
    rw [hp] at h2
    simp only [Option.any_some, Bool.or_eq_true, decide_eq_true_eq, not_or] at h2
    exact ⟨by omega, by simpa using h2.2⟩
  have hwv : width vc = 0 ∧ vc = none ∨ (width vc = 3 ∨ width vc = 4) ∧ ∃ p, vc = some p := by
    rcases e : vc with _ | p
    · left; exact ⟨rfl, rfl⟩
    · right; exact ⟨(hvl p e).1, p, rfl⟩
  have hwf : width fc = 0 ∧ fc = none ∨ (width fc = 3 ∨ width fc = 4) ∧ ∃ p, fc = some p := by
    rcases e : fc with _ | p
    · left; exact ⟨rfl, rfl⟩
    · right; exact ⟨(hfl p e).1, p, rfl⟩
  set VL := a.verts.mapIdx fun i v => vRow k v (colAt vc i) with hVL
  set FL := a.faces.mapIdx fun i f => fRow f (colAt fc i) with hFL
  set VR := a.verts.mapIdx fun i v => ([v.1, v.2.1, v.2.2] ++ colAt vc i).map (decRound k) with hVR
  set PS : List Poly := a.faces.mapIdx fun i f => ⟨[f.1, f.2.1, f.2.2], (colAt fc i).map (decRound 6)⟩ with hPS
  have hlines : lines ((saveLines a).flatMap (· ++ ['\n'])) = ['o', 'f', 'f'] :: join [' '] [fmtInt a.verts.length, fmtInt a.faces.length, ['0']] ::
      (VL ++ FL) := by
    have := lines_flatMap (saveLines_nl a) []
    rw [List.append_nil, lines_nil, List.append_nil] at this
    rw [this]
    rfl
  obtain ⟨hcnt, hemp⟩ := counts_saved a.verts.length a.faces.length
  have hV2 : List.Forall₂ RowLine VL VR := forall₂_mapIdx _ _ _ fun i v _ => (vRow_line k v _).1
  have hF2 : List.Forall₂ (fun l p => RowLine l p.row) FL PS := forall₂_mapIdx _ _ _ fun i f _ => (fRow_line f _).1
  have hVRl : ∀ v ∈ VR, v.length = 3 + width vc := by
    intro v hv
    obtain ⟨i, hi, rfl⟩ := List.mem_mapIdx.mp hv
    simp [colAt_len hvc' (fun p hp => (hvl p hp).2) hi]
    omega
  have hVRn : VR.length = a.verts.length := by simp [hVR]
  have hVRne : VR ≠ [] := by intro e; rw [e] at hVRn; exact hv (List.eq_nil_of_length_eq_zero hVRn.symm)
  have htxt := loadtxt_ok rd hV2 hVRl (co := none) (by simp) FL
  rw [hVRn] at htxt
  have hper := periods_head hV2 hVRne FL
  have hhead : ((VR.map (·.map rd)).headD []).length = 3 + width vc := by
    obtain ⟨r, R, e⟩ := List.exists_cons_of_ne_nil hVRne
    rw [e]
    simp only [List.map_cons, List.headD_cons, List.length_map]
    exact hVRl r (by rw [e]; exact List.mem_cons_self)
  have hread : readVerts rd sc a.verts.length (VL ++ FL) = .ok ((expected rd a).verts, (expected rd a).vcols, FL) := by
    unfold readVerts
    rw [hper]
    simp only [bind, Except.bind, htxt, List.length_map]
    simp only [hhead, hVRn]
    have hw3 : width vc = 0 ∨ width vc = 3 ∨ width vc = 4 := by
      rcases hwv with h | h
      · exact Or.inl h.1
      · exact Or.inr h.1
    rw [if_neg (by simp), if_neg (c := 3 + width vc ≠ 3 ∧ 3 + width vc ≠ 6 ∧ 3 + width vc ≠ 7) (by omega)]
    rcases hwv with ⟨hw, hn⟩ | ⟨hw, p, hp⟩
    · rw [if_pos (show 3 + width vc = 3 by rw [hw])]
      simp only [expected, ← hvcd, hn, Option.map_none]
      congr 2
      apply List.ext_getElem
      · simp [hVR]
      · intro i h1 h2
        simp [hVR, hn, colAt, ← hk]
    · rw [if_neg (by omega)]
      have hdots : decide ((uncomment (VL.headD [])).count '.' = 3) = false := by
        obtain ⟨v, V, e⟩ := List.exists_cons_of_ne_nil hv
        have hc0 : (colAt vc 0).length = width vc := colAt_len hvc' (fun p hp => (hvl p hp).2) (by rw [e]; simp)
        rw [hVL, e, List.mapIdx_cons, List.headD_cons, (vRow_line k v _).2, hc0]
        simp only [decide_eq_false_iff_not]
        by_cases hk0 : k = 0
        · rw [if_pos hk0]; decide
        · rw [if_neg hk0]
          rcases hw with hw | hw <;> rw [hw] <;> decide
      rw [hdots]
      simp only [expected, ← hvcd, hp, Option.map_some, scale, Bool.false_eq_true, if_false]
      have hcol := mapIdx_col a.verts hp (hvl p hp).2 fun r => r.map fun x => rd (decRound k x)
      congr 2
      · apply List.ext_getElem
        · simp [hVR]
        · intro i h1 h2
          simp [hVR, ← hk]
      · congr 2
        rw [← hk, ← hcol]
        apply List.ext_getElem
        · simp [hVR]
        · intro i h1 h2
          simp [hVR]
  have hfaces : readFaces rd sc a.faces.length FL = .ok (a.faces, (expected rd a).fcols, []) := by
    by_cases h0 : a.faces = []
    · have hfn : fc = none := by
        rcases hwf with ⟨_, h⟩ | ⟨_, p, hp⟩
        · exact h
        · exfalso
          have h3 := (hfl p hp).2
          rw [h0] at h3
          have h4 : p.2 ≠ [] := by
            rw [hfcd, present, Option.filter_eq_some_iff] at hp
            simpa using hp.2
          exact h4 (List.eq_nil_of_length_eq_zero h3)
      unfold readFaces
      simp [h0, expected, hFL, ← hfcd, hfn]
    · have hPl : PS.length = a.faces.length := by simp [hPS]
      have hPne : PS ≠ [] := by intro e; rw [e] at hPl; exact h0 (List.eq_nil_of_length_eq_zero hPl.symm)
      have hok : ∀ p ∈ PS, p.Ok (width fc) := by
        intro p hp
        obtain ⟨i, hi, rfl⟩ := List.mem_mapIdx.mp hp
        exact ⟨by simp, by simp [colAt_len hfc' (fun p hp => (hfl p hp).2) hi], hf _ (List.getElem_mem hi), by simp⟩
      have h3 : ∀ p ∈ PS, p.idx.length = 3 := by
        intro p hp
        obtain ⟨i, hi, rfl⟩ := List.mem_mapIdx.mp hp
        rfl
      have := readFaces_same (sc := sc) hr hF2 hPne hok h3 (by omega) []
      rw [List.append_nil, hPl] at this
      rw [this]
      have e1 : stacked 3 (PS.map (·.idx)) = a.faces := by
        unfold stacked
        simp only [List.range_one, Nat.add_one_sub_one, List.flatMap_cons, List.flatMap_nil, List.append_nil, List.map_map]
        apply List.ext_getElem
        · simp [hPS]
        · intro i h1 h2
          simp [hPS]
      rw [e1]
      congr 3
      rcases hwf with ⟨hw, hn⟩ | ⟨hw, p, hp⟩
      · rw [if_pos hw]
        simp only [expected, ← hfcd, hn, Option.map_none]
      · rw [if_neg (by omega)]
        simp only [expected, ← hfcd, hp, Option.map_some]
        congr 1
        have hcol := mapIdx_col a.faces hp (hfl p hp).2 fun r => r.map fun x => rd (decRound 6 x)
        have htint : tint rd sc FL = fun q => q.col.map rd := by
          funext q
          unfold tint
          obtain ⟨f, F, e⟩ := List.exists_cons_of_ne_nil h0
          have hc0 : (colAt fc 0).length = width fc := colAt_len hfc' (fun p hp => (hfl p hp).2) (by rw [e]; simp)
          rw [hFL, e, List.mapIdx_cons, List.headD_cons, (fRow_line f _).2, hc0, if_neg (by omega)]
        rw [htint, ← hcol, show (3 : Nat) - 2 = 1 from rfl]
        simp only [List.range_one, List.flatMap_cons, List.flatMap_nil, List.append_nil]
        apply List.ext_getElem
        · simp [hPS]
        · intro i h1 h2
          simp [hPS]
  unfold loadOff loadLines
  rw [hlines, header_saved hemp]
  simp only [bind, Except.bind, hcnt, hread, hfaces]
  rw [if_pos (by simp)]
  rfl

/-! ### Exact float32 round trips -/

/-- Float32 numbers whose last place is not below `8/3` units of the last decimal place; zero. -/
def Fits (k : Nat) (x : ℚ) : Prop :=
  x = 0 ∨ ∃ m e : Int, -149 ≤ e ∧ 2 ^ 23 ≤ |m| ∧ |m| < 2 ^ 24 ∧ (1 : ℚ) / 10 ^ k ≤ 3 / 8 * 2 ^ e ∧ x = m * 2 ^ e

theorem fits_id {k : Nat} {x : ℚ} (h : Fits k x) : Flt.rd32 (decRound k x) = x := by
  rcases h with rfl | ⟨m, e, he, h1, h2, hk, rfl⟩
  · have e1 : decRound k 0 = 0 := by simp [decRound, rhe]
    rw [e1]
    exact_mod_cast Flt.rd32_int (n := 0) (by norm_num)
  · exact Flt.rd32_decimal he h1 h2 hk

theorem intExact_rd32 : IntExact Flt.rd32 := fun _ h => Flt.rd32_int h

/-- **C65 (exact round trips).** Float32 coordinates that fit the decimal places are loaded exactly, from OFF and OBJ
files; the default 6 places fit all float32 numbers from 32 up in absolute value. -/
theorem off_lossless {sc : ℚ → ℚ} {a : Args} (hv : a.verts ≠ []) (hf : ∀ f ∈ a.faces, ∀ z ∈ [f.1, f.2.1, f.2.2], |z| ≤ 2 ^ 24)
    (hvc : Rect a.vcols) (hfc : Rect a.fcols) {t : Str} (ht : saveOff a = .ok t)
    (hx : ∀ v ∈ a.verts, ∀ x ∈ [v.1, v.2.1, v.2.2], Fits (a.decimals.getD 6) x) :
    ∃ d, loadOff Flt.rd32 sc t = .ok d ∧ d.verts = a.verts.map (fun v => [v.1, v.2.1, v.2.2]) ∧ d.faces = a.faces := by
  refine ⟨_, off_roundtrip intExact_rd32 hv hf hvc hfc ht, ?_, rfl⟩
  apply List.map_congr_left
  intro v hv
  have := hx v hv
  simp only [List.mem_cons, List.not_mem_nil, or_false, forall_eq_or_imp, forall_eq] at this
  simp only [List.map_cons, List.map_nil, fits_id this.1, fits_id this.2.1, fits_id this.2.2]

theorem obj_lossless {k : Nat} {v : ℚ × ℚ × ℚ} (h : Fits k v.1 ∧ Fits k v.2.1 ∧ Fits k v.2.2) :
    (v3 k v).map Flt.rd32 = [v.1, v.2.1, v.2.2] := by
  simp only [v3, List.map_cons, List.map_nil, fits_id h.1, fits_id h.2.1, fits_id h.2.2]

theorem fits_six {m e : Int} (he : -18 ≤ e) (h1 : 2 ^ 23 ≤ |m|) (h2 : |m| < 2 ^ 24) : Fits 6 (m * 2 ^ e) := by
  refine Or.inr ⟨m, e, by omega, h1, h2, ?_, rfl⟩
  have : (2 : ℚ) ^ (-18 : Int) ≤ 2 ^ e := zpow_le_zpow_right₀ (by norm_num) he
  norm_num at this ⊢
  linarith

/-! ### Comments and empty lines -/

/-- The meaningful lines. -/
def real (ls : List Str) : List Str := ls.filter fun l => !isEmpty l

theorem real_cons_empty {l : Str} (h : isEmpty l = true) (ls : List Str) : real (l :: ls) = real ls := by simp [real, h]
theorem real_cons {l : Str} (h : isEmpty l = false) (ls : List Str) : real (l :: ls) = l :: real ls := by simp [real, h]
theorem real_real (ls : List Str) : real (real ls) = real ls := by simp [real]

theorem findLine_real (ls : List Str) : findLine (real ls) = (findLine ls).map fun x => (x.1, real x.2) := by
  induction ls with
  | nil => rfl
  | cons l ls ih =>
    by_cases h : isEmpty l = true
    · rw [real_cons_empty h, ih]
      unfold findLine
      rw [List.dropWhile_cons_of_pos h]
    · have h' : isEmpty l = false := by simpa using h
      rw [real_cons h', findLine_cons h', findLine_cons h']
      rfl

theorem periods_real (ls : List Str) : periods (real ls) = periods ls := by
  unfold periods
  rw [findLine_real]
  cases findLine ls <;> rfl

theorem loadtxt_real (rd : ℚ → ℚ) (n : Nat) (c : Option Nat) (ls : List Str) :
    loadtxt rd n c (real ls) = (loadtxt rd n c ls).map fun r => (r.1, real r.2) := by
  induction ls generalizing n c with
  | nil => cases n <;> rfl
  | cons l ls ih =>
    cases n with
    | zero => simp [loadtxt, Except.map]
    | succ n =>
      by_cases h : isEmpty l = true
      · rw [real_cons_empty h, ih]
        conv_rhs => rw [loadtxt]
        simp only [(isEmpty_iff l).mp h, if_true]
      · have h' : isEmpty l = false := by simpa using h
        have hw : words (uncomment l) ≠ [] := fun e => h ((isEmpty_iff l).mpr e)
        rw [real_cons h']
        simp only [loadtxt, if_neg hw]
        split_ifs
        · rfl
        · rcases (words (uncomment l)).mapM parseFloat with _ | v
          · rfl
          · simp only [ih, bind, Except.bind]
            rcases loadtxt rd n (some (words (uncomment l)).length) ls with _ | r <;> rfl

theorem loadtxt_suffix (rd : ℚ → ℚ) {n : Nat} {c : Option Nat} {ls : List Str} {r} (h : loadtxt rd n c ls = .ok r) : r.2 <:+ ls := by
  induction ls generalizing n c r with
  | nil =>
    cases n <;> simp only [loadtxt, Except.ok.injEq] at h <;> subst h <;> exact List.suffix_refl _
  | cons l ls ih =>
    cases n with
    | zero => simp only [loadtxt, Except.ok.injEq] at h; subst h; exact List.suffix_refl _
    | succ n =>
      simp only [loadtxt] at h
      split_ifs at h with h1 h2
      · exact (ih h).trans (List.suffix_cons _ _)
      · rcases e : (words (uncomment l)).mapM parseFloat with _ | v
        · rw [e] at h; simp at h
        · rw [e] at h
          simp only [bind, Except.bind] at h
          rcases e2 : loadtxt rd n (some (words (uncomment l)).length) ls with _ | q
          · rw [e2] at h; simp at h
          · rw [e2] at h
            simp only [Except.ok.injEq] at h
            subst h
            exact (ih e2).trans (List.suffix_cons _ _)

theorem readLump_real (rd : ℚ → ℚ) (n : Nat) (nc : Option Int) (ls : List Str) :
    readLump rd n nc (real ls) = (readLump rd n nc ls).map fun o => o.map fun x => (x.1, real x.2) := by
  unfold readLump
  rw [loadtxt_real]
  rcases loadtxt rd n none ls with (_ | _) | ⟨rows, rest⟩
  · simp only [Except.map]; split_ifs <;> rfl
  · rfl
  · simp only [Except.map]
    split_ifs
    · rfl
    · rcases lump nc rows with _ | r <;> rfl

theorem readLump_suffix (rd : ℚ → ℚ) {n : Nat} {nc : Option Int} {ls : List Str} {x} (h : readLump rd n nc ls = .ok (some x)) :
    x.2 <:+ ls := by
  unfold readLump at h
  rcases e : loadtxt rd n none ls with (_ | _) | ⟨rows, rest⟩ <;> rw [e] at h
  · simp only at h; split_ifs at h; simp at h
  · simp at h
  · simp only at h
    split_ifs at h
    rcases e2 : lump nc rows with _ | r <;> rw [e2] at h
    · simp at h
    · simp only [Except.ok.injEq, Option.some.injEq] at h
      subst h
      exact loadtxt_suffix rd e

theorem readEach_real (rd : ℚ → ℚ) (n : Nat) (nc : Option Int) (ls : List Str) :
    readEach rd n nc (real ls) = (readEach rd n nc ls).map fun x => (x.1, x.2.1, x.2.2.1, real x.2.2.2) := by
  induction n generalizing nc ls with
  | zero => rfl
  | succ n ih =>
    simp only [readEach, readLump_real]
    rcases readLump rd 1 nc ls with _ | (_ | ⟨r, rest⟩)
    · rfl
    · rfl
    · simp only [Except.map, Option.map_some, ih]
      rcases readEach rd n (some r.2.1) rest with _ | s <;> rfl

theorem readEach_suffix (rd : ℚ → ℚ) {n : Nat} {nc : Option Int} {ls : List Str} {x} (h : readEach rd n nc ls = .ok x) :
    x.2.2.2 <:+ ls := by
  induction n generalizing nc ls x with
  | zero => simp only [readEach, Except.ok.injEq] at h; subst h; exact List.suffix_refl _
  | succ n ih =>
    simp only [readEach] at h
    rcases e : readLump rd 1 nc ls with _ | (_ | ⟨r, rest⟩) <;> rw [e] at h
    · simp at h
    · simp at h
    · simp only at h
      rcases e2 : readEach rd n (some r.2.1) rest with _ | s <;> rw [e2] at h
      · simp at h
      · simp only [Except.ok.injEq] at h
        subst h
        exact (ih e2).trans (readLump_suffix rd e)

theorem readFaces_real (rd sc : ℚ → ℚ) (n : Nat) (ls : List Str) :
    readFaces rd sc n (real ls) = (readFaces rd sc n ls).map fun x => (x.1, x.2.1, real x.2.2) := by
  unfold readFaces
  split_ifs
  · rfl
  · rw [periods_real, readLump_real, readEach_real]
    simp only [bind, Except.bind]
    rcases periods ls with _ | p
    · rfl
    · simp only
      rcases readLump rd n none ls with _ | (_ | ⟨r, rest⟩)
      · rfl
      · simp only [Except.map, Option.map_none]
        rcases readEach rd n none ls with _ | s <;> rfl
      · rfl

theorem readFaces_suffix (rd sc : ℚ → ℚ) {n : Nat} {ls : List Str} {x} (h : readFaces rd sc n ls = .ok x) : x.2.2 <:+ ls := by
  unfold readFaces at h
  split_ifs at h
  · simp only [Except.ok.injEq] at h; subst h; exact List.suffix_refl _
  · simp only [bind, Except.bind] at h
    rcases e1 : periods ls with _ | p <;> rw [e1] at h
    · simp at h
    · simp only at h
      rcases e : readLump rd n none ls with _ | (_ | ⟨r, rest⟩) <;> rw [e] at h
      · simp at h
      · simp only at h
        rcases e2 : readEach rd n none ls with _ | s <;> rw [e2] at h
        · simp at h
        · simp only [Except.ok.injEq] at h
          subst h
          exact readEach_suffix rd e2
      · simp only [Except.ok.injEq] at h
        subst h
        exact readLump_suffix rd e

theorem readVerts_real (rd sc : ℚ → ℚ) (n : Nat) (ls : List Str) :
    readVerts rd sc n (real ls) = (readVerts rd sc n ls).map fun x => (x.1, x.2.1, real x.2.2) := by
  unfold readVerts
  rw [periods_real, loadtxt_real]
  simp only [bind, Except.bind]
  rcases periods ls with _ | p
  · rfl
  · simp only
    rcases loadtxt rd n none ls with _ | ⟨rows, rest⟩
    · rfl
    · simp only [Except.map]
      split_ifs <;> rfl

theorem readVerts_suffix (rd sc : ℚ → ℚ) {n : Nat} {ls : List Str} {x} (h : readVerts rd sc n ls = .ok x) : x.2.2 <:+ ls := by
  unfold readVerts at h
  simp only [bind, Except.bind] at h
  rcases e1 : periods ls with _ | p <;> rw [e1] at h
  · simp at h
  · simp only at h
    rcases e : loadtxt rd n none ls with _ | ⟨rows, rest⟩ <;> rw [e] at h
    · simp at h
    · simp only at h
      split_ifs at h <;> simp only [Except.ok.injEq] at h <;> subst h <;> exact loadtxt_suffix rd e

theorem header_real (ls : List Str) : header (real ls) = (header ls).map fun x => (x.1, real x.2) := by
  unfold header
  rw [findLine_real]
  rcases findLine ls with _ | ⟨l, r⟩
  · rfl
  · simp only [Option.map_some]
    split_ifs
    all_goals
      first
      | rfl
      | (rw [findLine_real]
         rcases findLine r with _ | x <;> rfl)

theorem findLine_suffix {ls : List Str} {x} (h : findLine ls = some x) : x.2 <:+ ls := by
  unfold findLine at h
  have hs : ls.dropWhile isEmpty <:+ ls := List.dropWhile_suffix _
  rcases e : ls.dropWhile isEmpty with _ | ⟨l, r⟩ <;> rw [e] at h
  · simp at h
  · simp only [Option.some.injEq] at h
    subst h
    rw [e] at hs
    exact (List.suffix_cons _ _).trans hs

theorem header_suffix {ls : List Str} {x} (h : header ls = .ok x) : x.2 <:+ ls := by
  unfold header at h
  rcases e : findLine ls with _ | ⟨l, r⟩ <;> rw [e] at h
  · simp at h
  · have h1 := findLine_suffix e
    simp only at h
    split_ifs at h
    all_goals
      first
      | (rcases e2 : findLine r with _ | y <;> rw [e2] at h
         · simp at h
         · simp only [Except.ok.injEq] at h
           subst h
           exact (findLine_suffix e2).trans h1)
      | (simp only [Except.ok.injEq] at h
         subst h
         exact h1)

/-- **C65 (comments).** In a file that ends with a meaningful line, empty lines and comment lines anywhere make no
difference. -/
theorem off_comments (rd sc : ℚ → ℚ) (L : List Str) {l : Str} (hl : isEmpty l = false) :
    loadLines rd sc (L ++ [l]) = loadLines rd sc (real (L ++ [l])) := by
  unfold loadLines
  rw [header_real]
  simp only [bind, Except.bind]
  rcases e1 : header (L ++ [l]) with _ | h
  · rfl
  simp only [Except.map]
  rcases counts h.1 with _ | c
  · rfl
  simp only [readVerts_real]
  rcases e2 : readVerts rd sc c.1 h.2 with _ | v
  · rfl
  simp only [Except.map, readFaces_real]
  rcases e3 : readFaces rd sc c.2 v.2.2 with _ | f
  · rfl
  simp only [Except.map]
  have hsuf : f.2.2 <:+ L ++ [l] := (readFaces_suffix rd sc e3).trans ((readVerts_suffix rd sc e2).trans (header_suffix e1))
  have hblank : ∀ m : Str, strip m = [] → isEmpty m = true := by intro m hm; simp [isEmpty, hm]
  have key : (f.2.2.all fun l => strip l = []) = ((real f.2.2).all fun l => strip l = []) := by
    rcases eq : f.2.2 with _ | ⟨m, R⟩
    · rfl
    · have hmem : l ∈ f.2.2 := by
        obtain ⟨P, hP⟩ := hsuf
        have hne : f.2.2 ≠ [] := by rw [eq]; simp
        have := congrArg List.getLast? hP
        rw [List.getLast?_append_of_ne_nil _ hne, List.getLast?_append_of_ne_nil _ (by simp)] at this
        exact List.mem_of_getLast? this
      rw [← eq]
      have a1 : (f.2.2.all fun l => strip l = []) = false := by
        rw [List.all_eq_false]
        exact ⟨l, hmem, by intro h; have := hblank l (by simpa using h); rw [hl] at this; simp at this⟩
      have a2 : ((real f.2.2).all fun l => strip l = []) = false := by
        rw [List.all_eq_false]
        exact ⟨l, by simp [real, hmem, hl], by intro h; have := hblank l (by simpa using h); rw [hl] at this; simp at this⟩
      rw [a1, a2]
  rw [key]

/-! ### What goes wrong -/

/-- A file without any meaningful line, for example an empty one, is never finished. -/
theorem off_empty_hangs (rd sc : ℚ → ℚ) {L : List Str} (h : ∀ l ∈ L, isEmpty l = true) : loadLines rd sc L = .error .hang := by
  have : findLine L = none := by
    unfold findLine
    rw [List.dropWhile_eq_nil_iff.mpr h]
  simp only [loadLines, header, this, bind, Except.bind]

/-- A mesh without vertices can be saved but not loaded. -/
theorem off_no_verts (rd sc : ℚ → ℚ) {a : Args} (hv : a.verts = []) {t : Str} (ht : saveOff a = .ok t) :
    loadOff rd sc t = .error .value := by
  unfold saveOff at ht
  split_ifs at ht with h1 h2
  simp only [Except.ok.injEq] at ht
  subst ht
  obtain ⟨hcnt, hemp⟩ := counts_saved a.verts.length a.faces.length
  have hlines := lines_flatMap (saveLines_nl a) []
  rw [List.append_nil, lines_nil, List.append_nil] at hlines
  unfold loadOff loadLines
  rw [hlines]
  have e : saveLines a = ['o', 'f', 'f'] :: join [' '] [fmtInt a.verts.length, fmtInt a.faces.length, ['0']] :: (saveLines a).drop 2 := rfl
  rw [e, header_saved hemp]
  simp only [bind, Except.bind, hcnt]
  have : ∀ ls, readVerts rd sc a.verts.length ls = .error .value := by
    intro ls
    unfold readVerts periods
    rcases findLine ls with _ | x
    · rfl
    · simp [bind, Except.bind, hv, loadtxt]
  rw [this]

/-- A comment after the last face is an error. -/
theorem off_trailing_comment (rd sc : ℚ → ℚ) : loadOff rd sc "off\n1 0 0\n0 0 0\n# end\n".toList = .error .value := by
  rfl

/-- Integer colours beside integer coordinates are not scaled: the colour is 255. -/
theorem off_int_colors : loadOff id (· / 255) "off\n1 0 0\n0 0 0 255 0 0\n".toList
    = .ok ⟨[[0, 0, 0]], some [[255, 0, 0]], [], none⟩ := by decide +kernel

/-- Colours in [0, 1] beside integer coordinates are divided by 255. -/
theorem off_float_colors : loadOff id (· / 255) "off\n1 0 0\n0 0 0 0.5 1.0 0.0\n".toList
    = .ok ⟨[[0, 0, 0]], some [[1 / 510, 1 / 255, 0]], [], none⟩ := by decide +kernel

/-- Indices are read as float32: the vertex 16777217 becomes 16777216. -/
theorem off_big_index : (loadOff Flt.rd32 id "off\n1 1 0\n0 0 0\n3 16777217 0 1\n".toList).toOption.map (·.faces)
    = some [(16777216, 0, 1)] := by decide +kernel

/-- Fractional indices are truncated without an error. -/
theorem off_fraction_index : (loadOff id id "off\n1 1 0\n0 0 0\n3 0.9 1.5 2\n".toList).toOption.map (·.faces)
    = some [(0, 1, 2)] := by decide +kernel

/-! ### Examples -/

def sampleArgs : Args where
  verts := [(1 / 3, -2, 0), (7 / 8, 0, 5), (12, 0, 1 / 2)]
  faces := [(0, 1, 2), (2, 1, 0)]
  fcols := some (3, [[1, 0, 1 / 2], [0, 1 / 3, 0]])
  decimals := some 2

example : (saveOff sampleArgs).toOption.map String.ofList = some ("off\n3 2 0\n0.33 -2.00 0.00\n0.88 0.00 5.00\n12.00 0.00 0.50\n" ++
    "3 0 1 2 1.000000 0.000000 0.500000\n3 2 1 0 0.000000 0.333333 0.000000\n") := by decide +kernel

example : ∃ t, saveOff sampleArgs = .ok t ∧ loadOff Flt.rd32 id t = .ok (expected Flt.rd32 sampleArgs) :=
  ⟨_, rfl, off_roundtrip intExact_rd32 (by simp [sampleArgs]) (by simp [sampleArgs]) (by simp [Rect, sampleArgs])
    (by simp [Rect, sampleArgs]) rfl⟩

example : (expected id sampleArgs).fcols = some [[1, 0, 1 / 2], [0, 333333 / 1000000, 0]] := by decide +kernel

/-- Two quadrangles: first the first triangles of both; a quadrangle and a triangle: in the order of the file. -/
example : (loadOff id id "OFF\n0 0 0\n# nothing".toList) = .error .value ∧
    (loadOff id id "OFF 1 2 0 # one vertex\n\n0 0 0\n4 0 1 2 3\n4 4 5 6 7\n".toList).toOption.map (·.faces)
      = some [(0, 1, 2), (4, 5, 6), (0, 2, 3), (4, 6, 7)] ∧
    (loadOff id id "OFF\n1 2 0\n0 0 0\n4 0 1 2 3\n# a triangle\n3 4 5 6".toList).toOption.map (·.faces)
      = some [(0, 1, 2), (0, 2, 3), (4, 5, 6)] := by decide +kernel

example : Fits 6 (-10000001 / 2 ^ 18) := by
  have := fits_six (m := -10000001) (e := -18) (by norm_num) (by norm_num) (by norm_num)
  norm_num at this ⊢
  exact this

end P3D.Off
