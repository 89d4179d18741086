/-
`io/obj_io.py`: `save_obj`, `_save`, `_write_normals`, `_write_faces`, `_parse_obj`, `_parse_face`,
`_format_faces_indices`, `_load_obj`; `io/mtl_io.py`: `_parse_mtl`, `_load_texture_images`, `load_mtl`.

Files are texts (`Text`).  Numbers are rational; the rounding of `torch.tensor(..., dtype=float32)` and of numpy to
float32 is an arbitrary function `rd`.  File names are relative to the directory of the `.obj` file.  Warnings are not
modelled.  A PNG image is the list of its bytes.
-/
import Verif.Text

set_option linter.unusedSectionVars false
set_option linter.unusedSimpArgs false

namespace P3D.Obj
open Text

inductive Err
  | value | index | key
  deriving DecidableEq, Repr

abbrev Idx3 := Int × Int × Int
abbrev Image := List (List (List Nat))

/-! ## Reading -/

/-- Python `int(s)`. -/
def int (s : Str) : Except Err Int := match parseInt s with
  | some z => .ok z
  | none => .error .value

/-- Python `float(s)`. -/
def float (s : Str) : Except Err ℚ := match parseFloat s with
  | some z => .ok z
  | none => .error .value

/-- One entry of a face, obj_io.py:380-396: vertex, texture and normal index. -/
def corner (s : Str) : Except Err (Int × Option Int × Option Int) :=
  match splitOn '/' s with
  | [a] => do .ok (← int a, none, none)
  | [a, b] => do .ok (← int a, ← (if b = [] then .ok none else some <$> int b), none)
  | [a, b, c] => do .ok (← int a, ← (if b = [] then .ok none else some <$> int b), some (← int c))
  | _ => .error .value

/-- Lines 398-424: missing indices are -1, the number of indices must agree. -/
def padIdx (n : Nat) (l : List Int) : Except Err (List Int) :=
  if l = [] then .ok (List.replicate n (-1)) else if l.length = n then .ok l else .error .value

/-- Lines 426-437: the triangles of a polygon. -/
def fan (l : List Int) : List Idx3 :=
  (List.range (l.length - 2)).map fun i => (l.getD 0 0, l.getD (i + 1) 0, l.getD (i + 2) 0)

/-- State of `_parse_obj`. -/
structure P where
  verts : List (List ℚ) := []
  normals : List (List ℚ) := []
  uvs : List (List ℚ) := []
  fv : List Idx3 := []
  fn : List Idx3 := []
  ft : List Idx3 := []
  fm : List Int := []
  names : List Str := []
  mtl : Option Str := none
  cur : Int := -1

/-- `_parse_face`, obj_io.py:366-437. -/
def parseFace (s : P) (tok : List Str) : Except Err P := do
  let cs ← (tok.drop 1).mapM corner
  let n ← padIdx cs.length (cs.filterMap fun c => c.2.2)
  let t ← padIdx cs.length (cs.filterMap fun c => c.2.1)
  let v := cs.map fun c => c.1
  .ok { s with fv := s.fv ++ fan v, fn := s.fn ++ fan n, ft := s.ft ++ fan t,
               fm := s.fm ++ List.replicate (v.length - 2) s.cur }

/-- `[float(x) for x in tokens[1:k + 1]]` with the check of the length. -/
def vec (k : Nat) (tok : List Str) : Except Err (List ℚ) := do
  let v ← ((tok.drop 1).take k).mapM float
  if v.length = k then .ok v else .error .value

/-- One line of `_parse_obj`, obj_io.py:460-505. -/
def step (s : P) (raw : Str) : Except Err P :=
  let line := strip raw
  let tok := words line
  if startsWith ['m', 't', 'l', 'l', 'i', 'b'] line then
    if tok.length < 2 then .error .value else .ok { s with mtl := some (strip (line.drop (tok.headD []).length)) }
  else if tok.head? = some ['u', 's', 'e', 'm', 't', 'l'] then
    match tok[1]? with
    | none => .error .index
    | some nm =>
      if nm ∈ s.names then .ok { s with cur := s.names.idxOf nm }
      else .ok { s with names := s.names ++ [nm], cur := s.names.length }
  else if startsWith ['v', ' '] line then do
    let v ← vec 3 tok
    .ok { s with verts := s.verts ++ [v] }
  else if startsWith ['v', 't', ' '] line then do
    let v ← vec 2 tok
    .ok { s with uvs := s.uvs ++ [v] }
  else if startsWith ['v', 'n', ' '] line then do
    let v ← vec 3 tok
    .ok { s with normals := s.normals ++ [v] }
  else if startsWith ['f', ' '] line then parseFace s tok
  else .ok s

/-- `_parse_obj`, obj_io.py:440-517. -/
def parseObj (text : Str) : Except Err P := (lines text).foldlM step {}

/-- One index of `_format_faces_indices`, lines 63-69. -/
def fmtIdx (n : Nat) (x : Int) : Int := if 0 < x then x - 1 else if x < 0 then x + n else x

/-- `_format_faces_indices`, lines 36-74. -/
def fmtFace (n : Nat) (pad : Bool) (f : Idx3) : Idx3 :=
  if pad ∧ f = (-1, -1, -1) then f else (fmtIdx n f.1, fmtIdx n f.2.1, fmtIdx n f.2.2)

/-- `d[k] = v` for a Python dict. -/
def setKey {α : Type*} (k : Str) (v : α) : List (Str × α) → List (Str × α)
  | [] => [(k, v)]
  | p :: l => if p.1 = k then (k, v) :: l else p :: setKey k v l

/-- `d.get(k)` -/
def getKey {α : Type*} (k : Str) : List (Str × α) → Option α
  | [] => none
  | p :: l => if p.1 = k then some p.2 else getKey k l

abbrev Props := List (Str × List ℚ)

/-- State of `_parse_mtl`. -/
structure Mtl where
  props : List (Str × Props) := []
  tex : List (Str × Str) := []
  cur : Str := []

/-- `material_properties[material_name][key] = value`. -/
def setProp (rd : ℚ → ℚ) (m : Mtl) (key : Str) (tok : List Str) : Except Err Mtl := do
  let v ← ((tok.drop 1).take 3).mapM float
  match getKey m.cur m.props with
  | none => .error .key
  | some p => .ok { m with props := setKey m.cur (setKey key (v.map rd) p) m.props }

/-- One line of `_parse_mtl`, mtl_io.py:418-447. -/
def mtlStep (rd : ℚ → ℚ) (m : Mtl) (raw : Str) : Except Err Mtl :=
  let tok := words (strip raw)
  match tok with
  | [] => .ok m
  | t :: ts =>
    if t = ['n', 'e', 'w', 'm', 't', 'l'] then
      match ts with
      | [] => .error .index
      | nm :: _ => .ok { m with cur := nm, props := setKey nm [] m.props }
    else if t = ['m', 'a', 'p', '_', 'K', 'd'] then .ok { m with tex := setKey m.cur ((strip raw).drop 7) m.tex }
    else if t = ['K', 'd'] then setProp rd m "diffuse_color".toList tok
    else if t = ['K', 'a'] then setProp rd m "ambient_color".toList tok
    else if t = ['K', 's'] then setProp rd m "specular_color".toList tok
    else if t = ['N', 's'] then setProp rd m "shininess".toList tok
    else .ok m

/-- `_parse_mtl`, mtl_io.py:407-449. -/
def parseMtl (rd : ℚ → ℚ) (text : Str) : Except Err Mtl := (lines text).foldlM (mtlStep rd) {}

/-- The files next to the `.obj` file. -/
structure Fs where
  text : Str → Option Str
  image : Str → Option Image

/-- Lines 452-485: the names of the materials that are loaded. -/
def usedNames (names : List Str) (m : Mtl) : Except Err (List Str) :=
  if names = [] ∧ m.props ≠ [] then
    match m.props with
    | [p] => .ok [p.1]
    | _ => .error .value
  else .ok names

/-- `_load_texture_images`, mtl_io.py:452-492. -/
def loadImages (rd : ℚ → ℚ) (fs : Fs) (names : List Str) (m : Mtl) :
    Except Err (List (Str × Props) × List (Str × List (List (List ℚ)))) := do
  let used ← usedNames names m
  let imgs := used.foldl (fun acc nm => match (getKey nm m.tex).bind fs.image with
    | some im => setKey nm (im.map fun r => r.map fun px => px.map fun (b : Nat) => rd ((b : ℚ) / 255)) acc
    | none => acc) []
  let props := used.foldl (fun acc nm => match getKey nm m.props with
    | some p => setKey nm p acc
    | none => acc) []
  .ok (props, imgs)

/-- Result of `load_obj`. -/
structure Loaded where
  verts : List (List ℚ)
  normals : List (List ℚ)
  uvs : List (List ℚ)
  fv : List Idx3
  fn : List Idx3
  ft : List Idx3
  fm : List Int
  colors : Option (List (Str × Props))
  images : Option (List (Str × List (List (List ℚ))))

/-- `_load_materials`, obj_io.py:520-565. -/
def loadMaterials (rd : ℚ → ℚ) (fs : Fs) (load : Bool) (p : P) :
    Except Err (Option (List (Str × Props)) × Option (List (Str × List (List (List ℚ))))) :=
  match load, p.mtl.bind fs.text with
  | true, some t => do
    let m ← parseMtl rd t
    let r ← loadImages rd fs p.names m
    .ok (some r.1, some r.2)
  | _, _ => .ok (none, none)

/-- `_load_obj`, obj_io.py:568-700, without `create_texture_atlas`. -/
def loadObj (rd : ℚ → ℚ) (fs : Fs) (load : Bool) (text : Str) : Except Err Loaded := do
  let p ← parseObj text
  let mt ← loadMaterials rd fs load p
  let clamp := (mt.1.getD []) ≠ [] ∧ p.names = []
  .ok { verts := p.verts.map fun v => v.map rd, normals := p.normals.map fun v => v.map rd,
        uvs := p.uvs.map fun v => v.map rd, fv := p.fv.map (fmtFace p.verts.length false),
        fn := p.fn.map (fmtFace p.normals.length true), ft := p.ft.map (fmtFace p.uvs.length true),
        fm := if clamp then p.fm.map (max 0) else p.fm, colors := mt.1, images := mt.2 }

/-! ## Writing -/

/-- Arguments of `save_obj`; the shapes that it checks are part of the types. -/
structure Args where
  stem : Str
  verts : List (ℚ × ℚ × ℚ)
  faces : List Idx3
  decimals : Option Nat := none
  normals : Option (List (ℚ × ℚ × ℚ)) := none
  fnIdx : Option (List Idx3) := none
  uvs : Option (List (ℚ × ℚ)) := none
  fuv : Option (List Idx3) := none
  texture : Option (List (List (List ℚ))) := none

/-- `save_texture`, line 766. -/
def Args.saveTex (a : Args) : Bool := a.fuv.isSome && a.uvs.isSome && a.texture.isSome

def line3 (h : Str) (k : Nat) (v : ℚ × ℚ × ℚ) : Str :=
  h ++ join [' '] [fmtFloat k v.1, fmtFloat k v.2.1, fmtFloat k v.2.2]

def line2 (h : Str) (k : Nat) (v : ℚ × ℚ) : Str := h ++ join [' '] [fmtFloat k v.1, fmtFloat k v.2]

/-- One entry of a face, lines 917-943. -/
def faceTok (c : Int × Option Int × Option Int) : Str :=
  match c.2.1, c.2.2 with
  | some t, some n => join ['/'] [fmtInt (c.1 + 1), fmtInt (t + 1), fmtInt (n + 1)]
  | none, some n => join ['/'] [fmtInt (c.1 + 1), [], fmtInt (n + 1)]
  | some t, none => join ['/'] [fmtInt (c.1 + 1), fmtInt (t + 1)]
  | none, none => fmtInt (c.1 + 1)

/-- The entries of face `i`. -/
def corners (f : Idx3) (t n : Option Idx3) : List (Int × Option Int × Option Int) :=
  [(f.1, t.map (·.1), n.map (·.1)), (f.2.1, t.map (·.2.1), n.map (·.2.1)), (f.2.2, t.map (·.2.2), n.map (·.2.2))]

def faceLine (cs : List (Int × Option Int × Option Int)) : Str := 'f' :: ' ' :: join [' '] (cs.map faceTok)

/-- `_write_faces`, lines 908-949. -/
def faceLines (faces : List Idx3) (fuv fnIdx : Option (List Idx3)) : List Str :=
  faces.mapIdx fun i f => faceLine (corners f (fuv.map fun l => l.getD i (0, 0, 0)) (fnIdx.map fun l => l.getD i (0, 0, 0)))

/-- The files written by `save_obj`. -/
structure Files where
  obj : Str
  mtl : Option (Str × Str) := none
  png : Option (Str × Image) := none

/-- The lines of `_save` that end with a line feed. -/
def dataLines (a : Args) : List Str :=
  let k := a.decimals.getD 6
  a.verts.map (line3 ['v', ' '] k) ++ (a.normals.getD []).map (line3 ['v', 'n', ' '] k)
    ++ (if a.saveTex then a.uvs.getD [] else []).map (line2 ['v', 't', ' '] k)

def headLines (a : Args) : List Str :=
  if a.saveTex then [[], ['m', 't', 'l', 'l', 'i', 'b', ' '] ++ a.stem ++ ['.', 'm', 't', 'l'],
    ['u', 's', 'e', 'm', 't', 'l', ' ', 'm', 'e', 's', 'h'], []] else []

/-- The text of the `.obj` file: header, lines 771-776; `_save`, lines 805-878.  Face normals or face uvs with fewer
rows than faces are an IndexError. -/
def saveText (a : Args) : Except Err Str :=
  let head := (headLines a).flatMap (· ++ ['\n'])
  let fuv := if a.saveTex then a.fuv else none
  if a.normals.isSome ≠ a.fnIdx.isSome then .error .value
  else if a.verts = [] ∧ a.faces = [] then .ok head
  else if (fuv.any fun l => decide (l.length < a.faces.length)) ∨ (a.fnIdx.any fun l => decide (l.length < a.faces.length)) then
    .error .index
  else .ok (head ++ (dataLines a).flatMap (· ++ ['\n']) ++ join ['\n'] (faceLines a.faces fuv a.fnIdx))

/-- `(texture_map * 255.0).astype(np.uint8)` for values from 0 to 1 (other values are undefined). -/
def quantize (t : List (List (List ℚ))) : Image := t.map fun r => r.map fun px => px.map fun x => ⌊x * 255⌋.toNat

/-- `save_obj`, lines 703-803. -/
def saveObj (a : Args) : Except Err Files := do
  let t ← saveText a
  if a.saveTex then
    .ok { obj := t,
          mtl := some (a.stem ++ ['.', 'm', 't', 'l'], ['n', 'e', 'w', 'm', 't', 'l', ' ', 'm', 'e', 's', 'h', '\n'] ++
            ['m', 'a', 'p', '_', 'K', 'd', ' '] ++ a.stem ++ ['.', 'p', 'n', 'g', '\n']),
          png := some (a.stem ++ ['.', 'p', 'n', 'g'], quantize (a.texture.getD [])) }
  else .ok { obj := t }

/-- The directory after saving. -/
def Files.fs (f : Files) : Fs where
  text := fun nm => (f.mtl.filter fun p => p.1 = nm).map (·.2)
  image := fun nm => (f.png.filter fun p => p.1 = nm).map (·.2)

/-! ## Proofs -/

theorem int_fmt (z : Int) : int (fmtInt z) = .ok z := by simp [int, parseInt_fmtInt]
theorem float_fmt (k : Nat) (x : ℚ) : float (fmtFloat k x) = .ok (decRound k x) := by simp [float, parseFloat_fmtFloat]

theorem fmtInt_word (z : Int) : IsWord (fmtInt z) ∧ '/' ∉ fmtInt z ∧ '\n' ∉ fmtInt z ∧ '#' ∉ fmtInt z := num_word (fmtInt_num z)
theorem fmtFloat_word (k : Nat) (x : ℚ) : IsWord (fmtFloat k x) ∧ '/' ∉ fmtFloat k x ∧ '\n' ∉ fmtFloat k x ∧ '#' ∉ fmtFloat k x :=
  num_word (fmtFloat_num k x)

theorem mem_join {sep : Str} {ws : List Str} {c : Char} (h : c ∈ join sep ws) : c ∈ sep ∨ ∃ w ∈ ws, c ∈ w := by
  induction ws with
  | nil => simp [join, List.intercalate] at h
  | cons a ws ih =>
    cases ws with
    | nil =>
      simp only [join, List.intercalate, List.intersperse, List.flatten_cons, List.flatten_nil, List.append_nil] at h
      exact Or.inr ⟨a, List.mem_cons_self, h⟩
    | cons b ws =>
      rw [join_cons_cons, List.append_assoc, List.mem_append, List.mem_append] at h
      rcases h with h | h | h
      · exact Or.inr ⟨a, List.mem_cons_self, h⟩
      · exact Or.inl h
      · rcases ih h with h | ⟨w, hw, hc⟩
        · exact Or.inl h
        · exact Or.inr ⟨w, List.mem_cons_of_mem _ hw, hc⟩

theorem join_last {ws : List Str} (hne : ws ≠ []) (h : ∀ w ∈ ws, IsWord w) :
    join [' '] ws ≠ [] ∧ ∀ r c, join [' '] ws = r ++ [c] → isSpace c = false := by
  induction ws with
  | nil => exact absurd rfl hne
  | cons a ws ih =>
    have ha := h a List.mem_cons_self
    cases ws with
    | nil =>
      simp only [join, List.intercalate, List.intersperse, List.flatten_cons, List.flatten_nil, List.append_nil]
      exact ⟨ha.1, fun r c e => ha.2 c (by rw [e]; simp)⟩
    | cons b ws =>
      obtain ⟨i1, i2⟩ := ih (by simp) fun w hw => h w (List.mem_cons_of_mem _ hw)
      rw [join_cons_cons]
      refine ⟨by simp, fun r c e => ?_⟩
      rcases List.eq_nil_or_concat (join [' '] (b :: ws)) with e' | ⟨r', c', e'⟩
      · exact absurd e' i1
      · rw [List.concat_eq_append] at e'
        rw [e', ← List.append_assoc] at e
        have := (List.append_inj' e rfl).2
        simp only [List.cons.injEq, and_true] at this
        rw [← this]
        exact i2 r' c' e'

/-- A line of words: nothing is stripped, and `split` gives the words. -/
theorem line_words {ws : List Str} (h : ∀ w ∈ ws, IsWord w) (hne : ws ≠ []) {hd : Str} (hh : IsWord hd) :
    strip (hd ++ ' ' :: join [' '] ws) = hd ++ ' ' :: join [' '] ws ∧ words (hd ++ ' ' :: join [' '] ws) = hd :: ws := by
  constructor
  · apply strip_id
    · intro c r e
      obtain ⟨d, t, rfl⟩ := List.exists_cons_of_ne_nil hh.1
      simp only [List.cons_append, List.cons.injEq] at e
      rw [← e.1]
      exact hh.2 d List.mem_cons_self
    · intro r c e
      obtain ⟨i1, i2⟩ := join_last hne h
      rcases List.eq_nil_or_concat (join [' '] ws) with e' | ⟨r', c', e'⟩
      · exact absurd e' i1
      · rw [List.concat_eq_append] at e'
        rw [e', ← List.cons_append, ← List.append_assoc] at e
        have := (List.append_inj' e rfl).2
        simp only [List.cons.injEq, and_true] at this
        rw [← this]
        exact i2 r' c' e'
  · rw [words_cons hh, words_join h]

theorem float_mapM (k : Nat) (l : List ℚ) : (l.map (fmtFloat k)).mapM float = .ok (l.map (decRound k)) := by
  induction l with
  | nil => rfl
  | cons a l ih =>
    rw [List.map_cons, List.mapM_cons, float_fmt, ih]
    rfl

theorem vec_line (hd : Str) (k : Nat) (l : List ℚ) :
    vec l.length (hd :: l.map (fmtFloat k)) = .ok (l.map (decRound k)) := by
  have : List.take l.length (l.map (fmtFloat k)) = l.map (fmtFloat k) := List.take_of_length_le (by simp)
  unfold vec
  rw [List.drop_one, List.tail_cons, this, float_mapM]
  simp [bind, Except.bind]

def v3 (k : Nat) (v : ℚ × ℚ × ℚ) : List ℚ := [decRound k v.1, decRound k v.2.1, decRound k v.2.2]
def v2 (k : Nat) (v : ℚ × ℚ) : List ℚ := [decRound k v.1, decRound k v.2]

theorem line3_words {hd : Str} (hh : IsWord hd) (k : Nat) (v : ℚ × ℚ × ℚ) :
    strip (line3 (hd ++ [' ']) k v) = line3 (hd ++ [' ']) k v ∧
    words (line3 (hd ++ [' ']) k v) = hd :: [v.1, v.2.1, v.2.2].map (fmtFloat k) := by
  have := line_words (ws := [fmtFloat k v.1, fmtFloat k v.2.1, fmtFloat k v.2.2])
    (by simp [(fmtFloat_word _ _).1]) (by simp) hh
  simpa [line3] using this

theorem line2_words {hd : Str} (hh : IsWord hd) (k : Nat) (v : ℚ × ℚ) :
    strip (line2 (hd ++ [' ']) k v) = line2 (hd ++ [' ']) k v ∧
    words (line2 (hd ++ [' ']) k v) = hd :: [v.1, v.2].map (fmtFloat k) := by
  have := line_words (ws := [fmtFloat k v.1, fmtFloat k v.2]) (by simp [(fmtFloat_word _ _).1]) (by simp) hh
  simpa [line2] using this

theorem step_v (s : P) (k : Nat) (v : ℚ × ℚ × ℚ) :
    step s (line3 ['v', ' '] k v) = .ok { s with verts := s.verts ++ [v3 k v] } := by
  obtain ⟨h1, h2⟩ := line3_words (hd := ['v']) ⟨by simp, by decide⟩ k v
  have h3 := vec_line ['v'] k [v.1, v.2.1, v.2.2]
  simp only [List.cons_append, List.nil_append] at h1 h2
  unfold step
  simp only [h1, h2]
  rw [if_neg (by simp [startsWith, line3]), if_neg (by simp), if_pos (by simp [startsWith, line3])]
  simp only [List.length_cons, List.length_nil] at h3
  rw [h3]
  rfl

theorem step_vn (s : P) (k : Nat) (v : ℚ × ℚ × ℚ) :
    step s (line3 ['v', 'n', ' '] k v) = .ok { s with normals := s.normals ++ [v3 k v] } := by
  obtain ⟨h1, h2⟩ := line3_words (hd := ['v', 'n']) ⟨by simp, by decide⟩ k v
  have h3 := vec_line ['v', 'n'] k [v.1, v.2.1, v.2.2]
  simp only [List.cons_append, List.nil_append] at h1 h2
  unfold step
  simp only [h1, h2]
  rw [if_neg (by simp [startsWith, line3]), if_neg (by simp), if_neg (by simp [startsWith, line3]),
    if_neg (by simp [startsWith, line3]), if_pos (by simp [startsWith, line3])]
  simp only [List.length_cons, List.length_nil] at h3
  rw [h3]
  rfl

theorem step_vt (s : P) (k : Nat) (v : ℚ × ℚ) :
    step s (line2 ['v', 't', ' '] k v) = .ok { s with uvs := s.uvs ++ [v2 k v] } := by
  obtain ⟨h1, h2⟩ := line2_words (hd := ['v', 't']) ⟨by simp, by decide⟩ k v
  have h3 := vec_line ['v', 't'] k [v.1, v.2]
  simp only [List.cons_append, List.nil_append] at h1 h2
  unfold step
  simp only [h1, h2]
  rw [if_neg (by simp [startsWith, line2]), if_neg (by simp), if_neg (by simp [startsWith, line2]),
    if_pos (by simp [startsWith, line2])]
  simp only [List.length_cons, List.length_nil] at h3
  rw [h3]
  rfl

/-! ### Faces -/

theorem corner_tok (c : Int × Option Int × Option Int) :
    corner (faceTok c) = .ok (c.1 + 1, c.2.1.map (· + 1), c.2.2.map (· + 1)) := by
  obtain ⟨v, t, n⟩ := c
  have hw := fun z => (fmtInt_word z).2.1
  have hn := fun z => (fmtInt_word z).1.1
  unfold corner faceTok
  rcases t with _ | t <;> rcases n with _ | n
  · simp only
    rw [show splitOn '/' (fmtInt (v + 1)) = [fmtInt (v + 1)] by
      have := splitOn_join (c := '/') (ws := [fmtInt (v + 1)]) (by simp) (by simpa using hw _)
      simpa [join, List.intercalate] using this]
    simp only [int_fmt]
    rfl
  · simp only
    rw [splitOn_join (by simp) (by simp [hw])]
    simp only [int_fmt, if_true]
    rfl
  · simp only
    rw [splitOn_join (by simp) (by simp [hw])]
    simp only [int_fmt, if_neg (hn _)]
    rfl
  · simp only
    rw [splitOn_join (by simp) (by simp [hw])]
    simp only [int_fmt, if_neg (hn _)]
    rfl

theorem faceTok_word (c : Int × Option Int × Option Int) : IsWord (faceTok c) ∧ '\n' ∉ faceTok c := by
  obtain ⟨v, t, n⟩ := c
  have key : ∀ ws : List Str, (∀ w ∈ ws, w = [] ∨ ∃ z, w = fmtInt z) → ∀ d ∈ join ['/'] ws, isSpace d = false ∧ d ≠ '\n' := by
    intro ws h d hd
    rcases mem_join hd with hd | ⟨w, hw, hd⟩
    · rw [List.mem_singleton.mp hd]; decide
    · rcases h w hw with rfl | ⟨z, rfl⟩
      · simp at hd
      · exact ⟨(fmtInt_word z).1.2 d hd, fun e => (fmtInt_word z).2.2.1 (e ▸ hd)⟩
  have hne : ∀ a ws, join ['/'] (fmtInt a :: ws) ≠ [] := by
    intro a ws
    cases ws with
    | nil => simpa [join, List.intercalate] using (fmtInt_word a).1.1
    | cons b ws => rw [join_cons_cons]; simp
  unfold faceTok
  rcases t with _ | t <;> rcases n with _ | n
  · exact ⟨(fmtInt_word _).1, (fmtInt_word _).2.2.1⟩
  all_goals
    simp only
    refine ⟨⟨hne _ _, fun d hd => (key _ ?_ d hd).1⟩, fun hd => (key _ ?_ _ hd).2 rfl⟩ <;>
    · intro w hw
      simp only [List.mem_cons, List.not_mem_nil, or_false] at hw
      rcases hw with rfl | rfl | rfl <;> first | exact Or.inl rfl | exact Or.inr ⟨_, rfl⟩

theorem corner_mapM (cs : List (Int × Option Int × Option Int)) :
    (cs.map faceTok).mapM corner = .ok (cs.map fun c => (c.1 + 1, c.2.1.map (· + 1), c.2.2.map (· + 1))) := by
  induction cs with
  | nil => rfl
  | cons a l ih =>
    rw [List.map_cons, List.mapM_cons, corner_tok, ih]
    rfl

/-- Indices of one kind for a face: either all entries have one or none. -/
def Uniform (n : Nat) (l : List (Option Int)) (r : List Int) : Prop :=
  (l = r.map some ∧ r.length = n) ∨ (l = List.replicate n none ∧ r = List.replicate n (-1))

theorem padIdx_spec {n : Nat} {l : List (Option Int)} {r : List Int} (hn : n ≠ 0) (h : Uniform n l r) :
    padIdx n (l.filterMap id) = .ok r := by
  rcases h with ⟨rfl, h⟩ | ⟨rfl, rfl⟩
  · have e : (r.map some).filterMap id = r := by simp [List.filterMap_map]
    unfold padIdx
    rw [e, if_neg (by rintro rfl; exact hn h.symm), if_pos h]
  · have e : (List.replicate n (none : Option Int)).filterMap id = [] := by
      simp [List.filterMap_replicate_of_none]
    unfold padIdx
    rw [e, if_pos rfl]

/-- **C64 (face lines).** A face line with `n ≥ 1` entries, of which all or none have texture indices and all or none
have normal indices, appends the `n - 2` triangles `(0, i + 1, i + 2)` with the indices (one-based as written) and the
current material. -/
theorem step_face (s : P) (cs : List (Int × Option Int × Option Int)) (hne : cs ≠ []) {t n : List Int}
    (ht : Uniform cs.length (cs.map fun c => c.2.1.map (· + 1)) t) (hn : Uniform cs.length (cs.map fun c => c.2.2.map (· + 1)) n) :
    step s (faceLine cs) = .ok { s with fv := s.fv ++ fan (cs.map fun c => c.1 + 1), fn := s.fn ++ fan n, ft := s.ft ++ fan t,
                                        fm := s.fm ++ List.replicate (cs.length - 2) s.cur } := by
  obtain ⟨h1, h2⟩ := line_words (ws := cs.map faceTok) (by
      intro w hw; obtain ⟨c, _, rfl⟩ := List.mem_map.mp hw; exact (faceTok_word c).1) (by simpa using hne)
    (hd := ['f']) ⟨by simp, by decide⟩
  have hc : cs.length ≠ 0 := by simpa using hne
  have e : faceLine cs = ['f'] ++ ' ' :: join [' '] (cs.map faceTok) := rfl
  unfold step
  simp only [e, h1, h2]
  rw [if_neg (by simp [startsWith]), if_neg (by simp), if_neg (by simp [startsWith]), if_neg (by simp [startsWith]),
    if_neg (by simp [startsWith]), if_pos (by simp [startsWith])]
  have en : ((cs.map fun c => (c.1 + 1, c.2.1.map (· + 1), c.2.2.map (· + 1))).filterMap fun c => c.2.2)
      = (cs.map fun c => c.2.2.map (· + 1)).filterMap id := by
    simp only [List.filterMap_map]; rfl
  have et : ((cs.map fun c => (c.1 + 1, c.2.1.map (· + 1), c.2.2.map (· + 1))).filterMap fun c => c.2.1)
      = (cs.map fun c => c.2.1.map (· + 1)).filterMap id := by
    simp only [List.filterMap_map]; rfl
  unfold parseFace
  rw [List.drop_one, List.tail_cons, corner_mapM]
  simp only [bind, Except.bind, List.length_map, en, et, padIdx_spec hc hn, padIdx_spec hc ht, List.map_map]
  rfl

/-! ### Files -/

theorem foldlM_map {α : Type} {f : α → Str} {upd : P → α → P} (h : ∀ s x, step s (f x) = .ok (upd s x)) (s : P) (l : List α) :
    (l.map f).foldlM step s = .ok (l.foldl upd s) := by
  induction l generalizing s with
  | nil => rfl
  | cons a l ih =>
    rw [List.map_cons, List.foldlM_cons, h]
    exact ih _

theorem parse_verts (s : P) (k : Nat) (l : List (ℚ × ℚ × ℚ)) :
    (l.map (line3 ['v', ' '] k)).foldlM step s = .ok { s with verts := s.verts ++ l.map (v3 k) } := by
  rw [foldlM_map (fun s x => step_v s k x)]
  congr 1
  induction l generalizing s with
  | nil => simp
  | cons a l ih => rw [List.foldl_cons, ih]; simp

theorem parse_normals (s : P) (k : Nat) (l : List (ℚ × ℚ × ℚ)) :
    (l.map (line3 ['v', 'n', ' '] k)).foldlM step s = .ok { s with normals := s.normals ++ l.map (v3 k) } := by
  rw [foldlM_map (fun s x => step_vn s k x)]
  congr 1
  induction l generalizing s with
  | nil => simp
  | cons a l ih => rw [List.foldl_cons, ih]; simp

theorem parse_uvs (s : P) (k : Nat) (l : List (ℚ × ℚ)) :
    (l.map (line2 ['v', 't', ' '] k)).foldlM step s = .ok { s with uvs := s.uvs ++ l.map (v2 k) } := by
  rw [foldlM_map (fun s x => step_vt s k x)]
  congr 1
  induction l generalizing s with
  | nil => simp
  | cons a l ih => rw [List.foldl_cons, ih]; simp

def inc (f : Idx3) : Idx3 := (f.1 + 1, f.2.1 + 1, f.2.2 + 1)

theorem step_tri (s : P) (f : Idx3) (t n : Option Idx3) :
    step s (faceLine (corners f t n)) = .ok { s with
      fv := s.fv ++ [inc f], fn := s.fn ++ [(n.map inc).getD (-1, -1, -1)], ft := s.ft ++ [(t.map inc).getD (-1, -1, -1)],
      fm := s.fm ++ [s.cur] } := by
  obtain ⟨a, b, c⟩ := f
  have key : ∀ (o : Option Idx3), Uniform 3 [o.map (·.1) |>.map (· + 1), o.map (·.2.1) |>.map (· + 1), o.map (·.2.2) |>.map (· + 1)]
      [((o.map inc).getD (-1, -1, -1)).1, ((o.map inc).getD (-1, -1, -1)).2.1, ((o.map inc).getD (-1, -1, -1)).2.2] := by
    rintro (_ | ⟨x, y, z⟩)
    · exact Or.inr ⟨rfl, rfl⟩
    · exact Or.inl ⟨rfl, rfl⟩
  rw [step_face s (corners (a, b, c) t n) (by simp [corners]) (by simpa [corners] using key t) (by simpa [corners] using key n)]
  simp [corners, fan, inc]

theorem parse_faces (s : P) (faces : List Idx3) (fuv fnIdx : Option (List Idx3)) :
    (faceLines faces fuv fnIdx).foldlM step s = .ok { s with
      fv := s.fv ++ faces.map inc,
      fn := s.fn ++ (List.range faces.length).map fun i => (fnIdx.map fun l => inc (l.getD i (0, 0, 0))).getD (-1, -1, -1),
      ft := s.ft ++ (List.range faces.length).map fun i => (fuv.map fun l => inc (l.getD i (0, 0, 0))).getD (-1, -1, -1),
      fm := s.fm ++ List.replicate faces.length s.cur } := by
  unfold faceLines
  induction faces using List.reverseRecOn generalizing s with
  | nil => simp [pure, Except.pure]
  | append_singleton l f ih =>
    rw [List.mapIdx_concat, List.foldlM_append, ih]
    simp only [bind, Except.bind, List.foldlM_cons, List.foldlM_nil, step_tri, pure, Except.pure]
    simp only [List.length_append, List.length_cons, List.length_nil, zero_add, List.map_append, List.map_cons, List.map_nil,
      List.range_succ, List.append_assoc, List.replicate_succ', Option.map_map, Function.comp_def]

theorem words_ne_nil {s : Str} {c : Char} (h : c ∈ s) (hc : isSpace c = false) : words s ≠ [] := by
  unfold words
  induction s with
  | nil => simp at h
  | cons d s ih =>
    unfold splitBy
    by_cases hd : isSpace d = true
    · rw [if_pos hd]
      have : c ∈ s := by
        rcases List.mem_cons.mp h with rfl | h
        · rw [hd] at hc; exact absurd hc (by simp)
        · exact h
      simpa using ih this
    · rw [if_neg hd]
      simp

theorem strip_cons_space (s : Str) : strip (' ' :: s) = strip s := by
  unfold strip
  rw [List.dropWhile_cons_of_pos (by decide)]

theorem step_empty (s : P) : step s [] = .ok s := by
  simp [step, strip, words, splitBy, startsWith]

theorem step_usemtl (s : P) (h : s.names = []) : step s ['u', 's', 'e', 'm', 't', 'l', ' ', 'm', 'e', 's', 'h']
    = .ok { s with names := [['m', 'e', 's', 'h']], cur := 0 } := by
  have h1 : strip ['u', 's', 'e', 'm', 't', 'l', ' ', 'm', 'e', 's', 'h'] = ['u', 's', 'e', 'm', 't', 'l', ' ', 'm', 'e', 's', 'h'] := by decide
  have h2 : words ['u', 's', 'e', 'm', 't', 'l', ' ', 'm', 'e', 's', 'h'] = [['u', 's', 'e', 'm', 't', 'l'], ['m', 'e', 's', 'h']] := by decide
  unfold step
  simp only [h1, h2]
  rw [if_neg (by decide), if_pos (by simp)]
  simp [h]

/-- Stems of file names that survive: no line feed, no leading white space. -/
def StemOk (s : Str) : Prop := '\n' ∉ s ∧ ∀ c r, s = c :: r → isSpace c = false

theorem stem_strip {s e : Str} (h : StemOk s) {c d : Char} {m : Str} (he : e = c :: m ++ [d]) (hc : isSpace c = false)
    (hd : isSpace d = false) : strip (s ++ e) = s ++ e := by
  apply strip_id
  · intro x r e'
    cases s with
    | nil => rw [he] at e'; simp at e'; rw [← e'.1]; exact hc
    | cons y s => simp at e'; rw [← e'.1]; exact h.2 y s rfl
  · intro r x e'
    rw [he, List.cons_append, ← List.cons_append, ← List.append_assoc] at e'
    have := (List.append_inj' e' rfl).2
    simp only [List.cons.injEq, and_true] at this
    rw [← this]; exact hd

theorem step_mtllib (s : P) {stem : Str} (h : StemOk stem) :
    step s (['m', 't', 'l', 'l', 'i', 'b', ' '] ++ stem ++ ['.', 'm', 't', 'l'])
      = .ok { s with mtl := some (stem ++ ['.', 'm', 't', 'l']) } := by
  have e : ['m', 't', 'l', 'l', 'i', 'b', ' '] ++ stem ++ ['.', 'm', 't', 'l']
      = ['m', 't', 'l', 'l', 'i', 'b'] ++ ' ' :: (stem ++ ['.', 'm', 't', 'l']) := by simp
  have hs1 := stem_strip h (e := ['.', 'm', 't', 'l']) (c := '.') (d := 'l') (m := ['m', 't']) rfl (by decide) (by decide)
  have hs0 : strip (['m', 't', 'l', 'l', 'i', 'b'] ++ ' ' :: (stem ++ ['.', 'm', 't', 'l']))
      = ['m', 't', 'l', 'l', 'i', 'b'] ++ ' ' :: (stem ++ ['.', 'm', 't', 'l']) := by
    apply strip_id
    · intro c r e'; simp at e'; rw [← e'.1]; decide
    · intro r c e'
      have e2 : ['m', 't', 'l', 'l', 'i', 'b'] ++ ' ' :: (stem ++ ['.', 'm', 't', 'l'])
          = (['m', 't', 'l', 'l', 'i', 'b'] ++ ' ' :: (stem ++ ['.', 'm', 't'])) ++ ['l'] := by simp
      rw [e2] at e'
      have := (List.append_inj' e' rfl).2
      simp only [List.cons.injEq, and_true] at this
      rw [← this]; decide
  have hw := words_cons (w := ['m', 't', 'l', 'l', 'i', 'b']) ⟨by simp, by decide⟩ (stem ++ ['.', 'm', 't', 'l'])
  have hne : words (stem ++ ['.', 'm', 't', 'l']) ≠ [] := words_ne_nil (c := '.') (by simp) (by decide)
  rw [e]
  unfold step
  simp only [hs0, hw]
  rw [if_pos (by simp [startsWith]), if_neg (by
    have := List.length_pos_iff.mpr hne
    simp only [List.length_cons]; omega)]
  simp only [List.headD_cons, List.length_cons, List.length_nil, List.cons_append, List.nil_append]
  simp only [List.drop_succ_cons, List.drop_zero, strip_cons_space, hs1]

theorem parse_mtl (rd : ℚ → ℚ) {stem : Str} (h : StemOk stem) :
    parseMtl rd (['n', 'e', 'w', 'm', 't', 'l', ' ', 'm', 'e', 's', 'h', '\n'] ++ ['m', 'a', 'p', '_', 'K', 'd', ' '] ++ stem
      ++ ['.', 'p', 'n', 'g', '\n'])
      = .ok { props := [(['m', 'e', 's', 'h'], [])], tex := [(['m', 'e', 's', 'h'], stem ++ ['.', 'p', 'n', 'g'])],
              cur := ['m', 'e', 's', 'h'] } := by
  have e : ['n', 'e', 'w', 'm', 't', 'l', ' ', 'm', 'e', 's', 'h', '\n'] ++ ['m', 'a', 'p', '_', 'K', 'd', ' '] ++ stem
      ++ ['.', 'p', 'n', 'g', '\n'] = [['n', 'e', 'w', 'm', 't', 'l', ' ', 'm', 'e', 's', 'h'],
        ['m', 'a', 'p', '_', 'K', 'd'] ++ ' ' :: (stem ++ ['.', 'p', 'n', 'g'])].flatMap (· ++ ['\n']) ++ [] := by simp
  have hl := lines_flatMap (ls := [['n', 'e', 'w', 'm', 't', 'l', ' ', 'm', 'e', 's', 'h'],
        ['m', 'a', 'p', '_', 'K', 'd'] ++ ' ' :: (stem ++ ['.', 'p', 'n', 'g'])]) (by
      intro w hw
      simp only [List.mem_cons, List.not_mem_nil, or_false] at hw
      rcases hw with rfl | rfl
      · decide
      · simp [h.1]) []
  have hs : strip (['m', 'a', 'p', '_', 'K', 'd'] ++ ' ' :: (stem ++ ['.', 'p', 'n', 'g']))
      = ['m', 'a', 'p', '_', 'K', 'd'] ++ ' ' :: (stem ++ ['.', 'p', 'n', 'g']) := by
    apply strip_id
    · intro c r e'; simp at e'; rw [← e'.1]; decide
    · intro r c e'
      have e2 : ['m', 'a', 'p', '_', 'K', 'd'] ++ ' ' :: (stem ++ ['.', 'p', 'n', 'g'])
          = (['m', 'a', 'p', '_', 'K', 'd'] ++ ' ' :: (stem ++ ['.', 'p', 'n'])) ++ ['g'] := by simp
      rw [e2] at e'
      have := (List.append_inj' e' rfl).2
      simp only [List.cons.injEq, and_true] at this
      rw [← this]; decide
  have hw := words_cons (w := ['m', 'a', 'p', '_', 'K', 'd']) ⟨by simp, by decide⟩ (stem ++ ['.', 'p', 'n', 'g'])
  have h1 : mtlStep rd {} ['n', 'e', 'w', 'm', 't', 'l', ' ', 'm', 'e', 's', 'h']
      = .ok { props := [(['m', 'e', 's', 'h'], [])], tex := [], cur := ['m', 'e', 's', 'h'] } := by
    have : words (strip ['n', 'e', 'w', 'm', 't', 'l', ' ', 'm', 'e', 's', 'h']) = [['n', 'e', 'w', 'm', 't', 'l'], ['m', 'e', 's', 'h']] := by
      decide
    unfold mtlStep
    simp only [this, if_true]
    rfl
  unfold parseMtl
  rw [e, hl, lines_nil]
  simp only [List.append_nil, List.foldlM_cons, List.foldlM_nil, h1, bind, Except.bind, pure, Except.pure]
  unfold mtlStep
  simp only [hs, hw]
  rw [if_neg (by decide), if_pos trivial]
  simp [setKey]

theorem line3_nl {hd : Str} (h : '\n' ∉ hd) (k : Nat) (v : ℚ × ℚ × ℚ) : '\n' ∉ line3 hd k v := by
  unfold line3
  rw [List.mem_append]
  rintro (h' | h')
  · exact h h'
  · rcases mem_join h' with h' | ⟨w, hw, hc⟩
    · simp at h'
    · simp only [List.mem_cons, List.not_mem_nil, or_false] at hw
      rcases hw with rfl | rfl | rfl <;> exact (fmtFloat_word _ _).2.2.1 hc

theorem line2_nl {hd : Str} (h : '\n' ∉ hd) (k : Nat) (v : ℚ × ℚ) : '\n' ∉ line2 hd k v := by
  unfold line2
  rw [List.mem_append]
  rintro (h' | h')
  · exact h h'
  · rcases mem_join h' with h' | ⟨w, hw, hc⟩
    · simp at h'
    · simp only [List.mem_cons, List.not_mem_nil, or_false] at hw
      rcases hw with rfl | rfl <;> exact (fmtFloat_word _ _).2.2.1 hc

theorem faceLine_nl (cs : List (Int × Option Int × Option Int)) : '\n' ∉ faceLine cs := by
  unfold faceLine
  simp only [List.mem_cons]
  rintro (h | h | h)
  · exact absurd h (by decide)
  · exact absurd h (by decide)
  · rcases mem_join h with h | ⟨w, hw, hc⟩
    · simp at h
    · obtain ⟨c, _, rfl⟩ := List.mem_map.mp hw
      exact (faceTok_word c).2 hc

theorem lines_join {ls : List Str} (h : ∀ w ∈ ls, '\n' ∉ w ∧ w ≠ []) : lines (join ['\n'] ls) = ls := by
  rcases ls with _ | ⟨a, ls⟩
  · simp [join, List.intercalate, lines_nil]
  · have := splitOn_join (c := '\n') (ws := a :: ls) (by simp) fun w hw => (h w hw).1
    unfold lines
    simp only [this]
    rw [if_neg]
    intro e
    exact (h _ (List.mem_of_getLast? e)).2 rfl

theorem faceLines_mem {faces : List Idx3} {t n : Option (List Idx3)} {w : Str} (h : w ∈ faceLines faces t n) : '\n' ∉ w ∧ w ≠ [] := by
  unfold faceLines at h
  obtain ⟨i, hi, rfl⟩ := List.mem_mapIdx.mp h
  exact ⟨faceLine_nl _, by simp [faceLine]⟩

theorem fmtFace_inc (n : Nat) (p : Bool) {f : Idx3} (h : 0 ≤ f.1 ∧ 0 ≤ f.2.1 ∧ 0 ≤ f.2.2) : fmtFace n p (inc f) = f := by
  obtain ⟨a, b, c⟩ := f
  simp only [inc] at h ⊢
  have ha : ∀ x : Int, 0 ≤ x → fmtIdx n (x + 1) = x := by
    intro x hx
    unfold fmtIdx
    rw [if_pos (by omega)]
    omega
  unfold fmtFace
  rw [if_neg]
  · simp only [ha a h.1, ha b h.2.1, ha c h.2.2]
  · rintro ⟨_, e⟩
    simp only [Prod.mk.injEq] at e
    omega

/-- Nonnegative indices. -/
def NonNeg (l : List Idx3) : Prop := ∀ f ∈ l, 0 ≤ f.1 ∧ 0 ≤ f.2.1 ∧ 0 ≤ f.2.2

theorem faces_back (n : Nat) (p : Bool) {l : List Idx3} (h : NonNeg l) : (l.map inc).map (fmtFace n p) = l := by
  rw [List.map_map]
  conv_rhs => rw [← List.map_id l]
  exact List.map_congr_left fun f hf => fmtFace_inc n p (h f hf)

theorem opt_back (n F : Nat) {o : Option (List Idx3)} (h : ∀ l, o = some l → l.length = F ∧ NonNeg l) :
    ((List.range F).map fun i => (o.map fun l => inc (l.getD i (0, 0, 0))).getD (-1, -1, -1)).map (fmtFace n true)
      = o.getD (List.replicate F (-1, -1, -1)) := by
  rcases o with _ | l
  · simp [fmtFace]
  · obtain ⟨h1, h2⟩ := h l rfl
    subst h1
    simp only [Option.map_some, Option.getD_some]
    have e : (List.range l.length).map (fun i => inc (l.getD i (0, 0, 0))) = l.map inc :=
      List.ext_getElem (by simp) fun i a b => by
        have : i < l.length := by simpa using b
        simp [this]
    rw [e, faces_back _ _ h2]

/-- What `load_obj` returns for the files of `save_obj`. -/
def expected (rd : ℚ → ℚ) (a : Args) : Loaded :=
  let k := a.decimals.getD 6
  let F := a.faces.length
  { verts := a.verts.map fun v => (v3 k v).map rd
    normals := (a.normals.getD []).map fun v => (v3 k v).map rd
    uvs := (if a.saveTex then a.uvs.getD [] else []).map fun v => (v2 k v).map rd
    fv := a.faces
    fn := a.fnIdx.getD (List.replicate F (-1, -1, -1))
    ft := (if a.saveTex then a.fuv else none).getD (List.replicate F (-1, -1, -1))
    fm := List.replicate F (if a.saveTex then 0 else -1)
    colors := if a.saveTex then some [("mesh".toList, [])] else none
    images := if a.saveTex then some [("mesh".toList, (a.texture.getD []).map fun r => r.map fun px => px.map fun x =>
      rd ((⌊x * 255⌋.toNat : ℚ) / 255))] else none }

theorem parse_head (a : Args) (h : a.saveTex = true → StemOk a.stem) :
    (headLines a).foldlM step {} = .ok {
      names := if a.saveTex then [['m', 'e', 's', 'h']] else [], cur := if a.saveTex then 0 else -1,
      mtl := if a.saveTex then some (a.stem ++ ['.', 'm', 't', 'l']) else none } := by
  unfold headLines
  split_ifs with ht
  · simp only [List.foldlM_cons, List.foldlM_nil, step_empty, bind, Except.bind, step_mtllib _ (h ht), pure, Except.pure]
    rw [step_usemtl _ rfl]
  · rfl

/-- **C64 (OBJ round trip).** For every mesh with vertices or faces, with or without normals and textures, and any
number of decimal places: `save_obj` succeeds and `load_obj` on its files returns the faces and all index tensors
unchanged (missing ones are -1), the vertices, normals and texture coordinates rounded to the decimal places (6 by
default), and the texture image rounded down to multiples of 1/255. -/
theorem obj_roundtrip (rd : ℚ → ℚ) (a : Args) (hstem : a.saveTex = true → StemOk a.stem)
    (hn : a.normals.isSome = a.fnIdx.isSome) (hne : a.verts ≠ [] ∨ a.faces ≠ []) (hf : NonNeg a.faces)
    (hfn : ∀ l, a.fnIdx = some l → l.length = a.faces.length ∧ NonNeg l)
    (hft : ∀ l, a.fuv = some l → l.length = a.faces.length ∧ NonNeg l) :
    ∃ f, saveObj a = .ok f ∧ loadObj rd f.fs true f.obj = .ok (expected rd a) := by
  set fuv := if a.saveTex then a.fuv else none with hfuv
  have hft' : ∀ l, fuv = some l → l.length = a.faces.length ∧ NonNeg l := by
    intro l hl
    rw [hfuv] at hl
    split_ifs at hl
    exact hft l hl
  set text := (headLines a).flatMap (· ++ ['\n']) ++ (dataLines a).flatMap (· ++ ['\n'])
    ++ join ['\n'] (faceLines a.faces fuv a.fnIdx) with htext
  have hsave : saveText a = .ok text := by
    unfold saveText
    simp only [← hfuv]
    rw [if_neg (by simp [hn]), if_neg (by rintro ⟨h1, h2⟩; rcases hne with h | h; exacts [h h1, h h2]), if_neg]
    rintro (h | h)
    · rw [Option.any_eq_true] at h
      obtain ⟨l, hl, hlt⟩ := h
      have := (hft' l hl).1
      simp only [decide_eq_true_eq] at hlt
      omega
    · rw [Option.any_eq_true] at h
      obtain ⟨l, hl, hlt⟩ := h
      have := (hfn l hl).1
      simp only [decide_eq_true_eq] at hlt
      omega
  have hhead : ∀ w ∈ headLines a, '\n' ∉ w := by
    intro w hw
    unfold headLines at hw
    split_ifs at hw with ht
    · simp only [List.mem_cons, List.not_mem_nil, or_false] at hw
      rcases hw with rfl | rfl | rfl | rfl
      · simp
      · have := (hstem ht).1
        simp [this]
      · decide
      · simp
    · simp at hw
  have hdata : ∀ w ∈ dataLines a, '\n' ∉ w := by
    intro w hw
    unfold dataLines at hw
    simp only [List.mem_append, List.mem_map] at hw
    rcases hw with (⟨v, _, rfl⟩ | ⟨v, _, rfl⟩) | ⟨v, _, rfl⟩
    · exact line3_nl (by decide) _ _
    · exact line3_nl (by decide) _ _
    · exact line2_nl (by decide) _ _
  have hlines : lines text = headLines a ++ (dataLines a ++ faceLines a.faces fuv a.fnIdx) := by
    rw [htext, List.append_assoc, lines_flatMap hhead, lines_flatMap hdata, lines_join fun w hw => faceLines_mem hw]
  have hparse : parseObj text = .ok {
      verts := a.verts.map (v3 (a.decimals.getD 6)), normals := (a.normals.getD []).map (v3 (a.decimals.getD 6)),
      uvs := (if a.saveTex then a.uvs.getD [] else []).map (v2 (a.decimals.getD 6)),
      fv := a.faces.map inc,
      fn := (List.range a.faces.length).map fun i => (a.fnIdx.map fun l => inc (l.getD i (0, 0, 0))).getD (-1, -1, -1),
      ft := (List.range a.faces.length).map fun i => (fuv.map fun l => inc (l.getD i (0, 0, 0))).getD (-1, -1, -1),
      fm := List.replicate a.faces.length (if a.saveTex then 0 else -1),
      names := if a.saveTex then [['m', 'e', 's', 'h']] else [], cur := if a.saveTex then 0 else -1,
      mtl := if a.saveTex then some (a.stem ++ ['.', 'm', 't', 'l']) else none } := by
    unfold parseObj
    rw [hlines, List.foldlM_append, parse_head a hstem]
    unfold dataLines
    simp only [bind, Except.bind, List.foldlM_append, parse_verts, parse_normals, parse_uvs, parse_faces, List.nil_append]
  have hF := faces_back (a.verts.map (v3 (a.decimals.getD 6))).length false hf
  have hN := opt_back ((a.normals.getD []).map (v3 (a.decimals.getD 6))).length a.faces.length hfn
  have hT := opt_back ((if a.saveTex then a.uvs.getD [] else []).map (v2 (a.decimals.getD 6))).length a.faces.length hft'
  unfold saveObj
  rw [hsave]
  simp only [bind, Except.bind]
  by_cases ht : a.saveTex = true
  · simp only [if_pos ht] at hparse hT ⊢
    refine ⟨_, rfl, ?_⟩
    have hmtl : loadMaterials rd (Files.fs {
          obj := text,
          mtl := some (a.stem ++ ['.', 'm', 't', 'l'], ['n', 'e', 'w', 'm', 't', 'l', ' ', 'm', 'e', 's', 'h', '\n'] ++
            ['m', 'a', 'p', '_', 'K', 'd', ' '] ++ a.stem ++ ['.', 'p', 'n', 'g', '\n']),
          png := some (a.stem ++ ['.', 'p', 'n', 'g'], quantize (a.texture.getD [])) }) true
        { verts := a.verts.map (v3 (a.decimals.getD 6)), normals := (a.normals.getD []).map (v3 (a.decimals.getD 6)),
          uvs := (a.uvs.getD []).map (v2 (a.decimals.getD 6)),
          fv := a.faces.map inc,
          fn := (List.range a.faces.length).map fun i => (a.fnIdx.map fun l => inc (l.getD i (0, 0, 0))).getD (-1, -1, -1),
          ft := (List.range a.faces.length).map fun i => (fuv.map fun l => inc (l.getD i (0, 0, 0))).getD (-1, -1, -1),
          fm := List.replicate a.faces.length 0, names := [['m', 'e', 's', 'h']], cur := 0,
          mtl := some (a.stem ++ ['.', 'm', 't', 'l']) }
        = .ok (some [(['m', 'e', 's', 'h'], [])], some [(['m', 'e', 's', 'h'],
            (quantize (a.texture.getD [])).map fun r => r.map fun px => px.map fun (b : Nat) => rd ((b : ℚ) / 255))]) := by
      unfold loadMaterials
      simp only [Files.fs, Option.bind_some, Option.filter_some, decide_true, if_true, Option.map_some, bind, Except.bind,
        parse_mtl rd (hstem ht)]
      simp [loadImages, usedNames, getKey, setKey, bind, Except.bind]
    unfold loadObj
    simp only [hparse, bind, Except.bind, hmtl]
    rw [if_neg (by simp)]
    simp only [hF, hN, hT, expected, ← hfuv, if_pos ht, List.map_map, quantize, Function.comp_def]
    rfl
  · simp only [if_neg ht] at hparse hT ⊢
    refine ⟨_, rfl, ?_⟩
    unfold loadObj
    simp only [hparse, bind, Except.bind, loadMaterials, Option.bind_none]
    rw [if_neg (by simp)]
    simp only [hF, hN, hT, expected, ← hfuv, if_neg ht, List.map_map, Function.comp_def, Bool.false_eq_true, if_false]

/-- **C64 (accuracy).** With exact reading of decimal numbers every loaded vertex is within half a unit of the last
decimal place of the saved one, and equal to it if it is a multiple of that unit. -/
theorem obj_verts_close (k : Nat) (v : ℚ × ℚ × ℚ) :
    (∃ x y z, v3 k v = [x, y, z] ∧ |x - v.1| ≤ 1 / (2 * 10 ^ k) ∧ |y - v.2.1| ≤ 1 / (2 * 10 ^ k) ∧ |z - v.2.2| ≤ 1 / (2 * 10 ^ k))
    ∧ ((∃ a b c : Int, v = ((a : ℚ) / 10 ^ k, (b : ℚ) / 10 ^ k, (c : ℚ) / 10 ^ k)) → v3 k v = [v.1, v.2.1, v.2.2]) := by
  refine ⟨⟨_, _, _, rfl, (decRound_spec _ _).1, (decRound_spec _ _).1, (decRound_spec _ _).1⟩, ?_⟩
  rintro ⟨a, b, c, rfl⟩
  unfold v3
  rw [(decRound_spec k _).2.1 a rfl, (decRound_spec k _).2.1 b rfl, (decRound_spec k _).2.1 c rfl]

/-- Coordinates below half a unit of the last place become 0, with the default 6 decimal places those below 5e-7:
a mesh of that size collapses to a point. -/
theorem obj_tiny (k : Nat) (x : ℚ) (h : |x| < 1 / (2 * 10 ^ k)) : decRound k x = 0 := by
  have hp : (0 : ℚ) < 10 ^ k := by positivity
  have : rhe (x * 10 ^ k) = 0 := by
    have h2 : |x * 10 ^ k| < 1 / 2 := by
      rw [abs_mul, abs_of_pos hp]
      calc |x| * 10 ^ k < 1 / (2 * 10 ^ k) * 10 ^ k := mul_lt_mul_of_pos_right h hp
        _ = 1 / 2 := by field_simp
    apply rhe_unique
    · simpa using h2.le
    · intro e
      simp only [Int.cast_zero, zero_sub, abs_neg] at e
      linarith
  unfold decRound
  rw [this]
  simp

/-- **C64 (indices).** Positive indices count from one, negative ones from the end of all the elements of the file. -/
theorem fmtIdx_spec (n : Nat) : (∀ i : Nat, fmtIdx n (i + 1) = i) ∧ (∀ j : Nat, 1 ≤ j → fmtIdx n (-j) = (n : Int) - j)
    ∧ fmtIdx n 0 = 0 := by
  refine ⟨fun i => ?_, fun j hj => ?_, rfl⟩
  · unfold fmtIdx; rw [if_pos (by omega)]; omega
  · unfold fmtIdx; rw [if_neg (by omega), if_pos (by omega)]; omega

/-- The index 0, which no OBJ file may use, is read as the first vertex.  Hence a face with the index -1 is saved and
loaded with the index 0. -/
theorem obj_index_zero (n : Nat) (b c : Int) (p : Bool) (h : 0 ≤ b) (h' : 0 ≤ c) : fmtFace n p (inc (-1, b, c)) = (0, b, c) := by
  unfold fmtFace inc
  rw [if_neg (by simp)]
  simp only [Prod.mk.injEq]
  refine ⟨rfl, ?_, ?_⟩
  · have := (fmtIdx_spec n).1 b.toNat; rw [Int.toNat_of_nonneg h] at this; exact this
  · have := (fmtIdx_spec n).1 c.toNat; rw [Int.toNat_of_nonneg h'] at this; exact this

/-- Three relative normal (or texture) indices -1, all the last normal of the file, are read as missing; in the vertex
indices they are the last vertex. -/
theorem obj_relative_last (n : Nat) : fmtFace n true (-1, -1, -1) = (-1, -1, -1) ∧
    fmtFace n false (-1, -1, -1) = ((n : Int) - 1, (n : Int) - 1, (n : Int) - 1) := by
  constructor
  · simp [fmtFace]
  · simp [fmtFace, fmtIdx]; omega

/-- The number that a relative index is taken from is that of the whole file, not that of the elements before the line:
the vertices after a face shift its relative indices. -/
theorem obj_relative_total (rd : ℚ → ℚ) (fs : Fs) :
    (loadObj rd fs false "v 0 0 0\nv 1 0 0\nv 0 1 0\nf -3 -2 -1\nv 5 5 5\n".toList).toOption.map (·.fv)
      = some [(1, 2, 3)] := by
  have h : (parseObj "v 0 0 0\nv 1 0 0\nv 0 1 0\nf -3 -2 -1\nv 5 5 5\n".toList).toOption.map (fun p =>
      (p.fv.map (fmtFace p.verts.length false))) = some [(1, 2, 3)] := by decide +kernel
  unfold loadObj
  rcases e : parseObj "v 0 0 0\nv 1 0 0\nv 0 1 0\nf -3 -2 -1\nv 5 5 5\n".toList with _ | p
  · rw [e] at h; simp [Except.toOption] at h
  · rw [e] at h
    simp only [Except.toOption, Option.map_some] at h
    simp only [bind, Except.bind, loadMaterials, Except.toOption, Option.map_some]
    exact h

/-- A line whose keyword is followed by a tab is ignored without an error. -/
theorem obj_tab_ignored (s : P) (r : Str) (h : strip ('v' :: '\t' :: r) = 'v' :: '\t' :: r) :
    step s ('v' :: '\t' :: r) = .ok s := by
  unfold step
  simp only [h]
  have hw : words ('v' :: '\t' :: r) = ['v'] :: words r := by
    unfold words
    simp [splitBy, isSpace]
  rw [hw, if_neg (by simp [startsWith]), if_neg (by simp), if_neg (by simp [startsWith]), if_neg (by simp [startsWith]),
    if_neg (by simp [startsWith]), if_neg (by simp [startsWith])]

/-- Without all three of `verts_uvs`, `faces_uvs` and `texture_map` none of them is saved, with no error. -/
theorem obj_uvs_dropped (a : Args) (hm : a.fuv = none ∨ a.uvs = none ∨ a.texture = none) :
    saveObj a = saveObj { a with uvs := none, fuv := none, texture := none } := by
  have h : a.saveTex = false := by rcases hm with h | h | h <;> simp [Args.saveTex, h]
  have h2 : Args.saveTex { a with uvs := none, fuv := none, texture := none } = false := by simp [Args.saveTex]
  unfold saveObj saveText headLines dataLines
  simp only [h, h2, Bool.false_eq_true, if_false]

/-- Normals without face normal indices, or the converse, are a ValueError. -/
theorem obj_normals_pair (a : Args) (h : a.normals.isSome ≠ a.fnIdx.isSome) : saveObj a = .error .value := by
  unfold saveObj saveText
  rw [if_pos h]
  rfl

/-- With neither vertices nor faces nothing but the header is written, also when there are normals. -/
theorem obj_empty (a : Args) (hn : a.normals.isSome = a.fnIdx.isSome) (hv : a.verts = []) (hf : a.faces = [])
    (ht : a.saveTex = false) : saveObj a = .ok { obj := [] } := by
  unfold saveObj saveText headLines
  rw [if_neg (by simp [hn]), if_pos ⟨hv, hf⟩]
  simp [ht, bind, Except.bind]

/-- A material property before the first `newmtl` is a KeyError. -/
theorem mtl_needs_name (rd : ℚ → ℚ) (r : Str) (h : strip ('K' :: 'd' :: ' ' :: r) = 'K' :: 'd' :: ' ' :: r)
    {v : List ℚ} (hr : ((words r).take 3).mapM float = .ok v) : mtlStep rd {} ('K' :: 'd' :: ' ' :: r) = .error .key := by
  have hw := words_cons (w := ['K', 'd']) ⟨by simp, by decide⟩ r
  simp only [List.cons_append, List.nil_append] at hw
  unfold mtlStep
  simp only [h, hw]
  rw [if_neg (by simp), if_neg (by simp), if_pos trivial]
  unfold setProp
  simp only [List.drop_succ_cons, List.drop_zero, getKey]
  rw [hr]
  rfl

/-- The texture image loses up to one step of 1/255, always downwards. -/
theorem obj_texture_floor {x : ℚ} (h0 : 0 ≤ x) (h1 : x ≤ 1) : ⌊x * 255⌋.toNat ≤ 255 ∧ ((⌊x * 255⌋.toNat : ℚ) / 255) ≤ x ∧
    x < ((⌊x * 255⌋.toNat : ℚ) / 255) + 1 / 255 := by
  have hn : 0 ≤ ⌊x * 255⌋ := Int.floor_nonneg.mpr (by positivity)
  have e : ((⌊x * 255⌋.toNat : ℕ) : ℚ) = (⌊x * 255⌋ : ℚ) := by
    rw [← Int.cast_natCast, Int.toNat_of_nonneg hn]
  have h2 := Int.floor_le (x * 255)
  have h3 := Int.lt_floor_add_one (x * 255)
  rw [e]
  refine ⟨?_, ?_, ?_⟩
  · have : ⌊x * 255⌋ ≤ 255 := by
      have : ((⌊x * 255⌋ : Int) : ℚ) ≤ (255 : Int) := by push_cast; linarith
      exact_mod_cast this
    omega
  · rw [div_le_iff₀ (by norm_num)]; exact h2
  · rw [← add_div, lt_div_iff₀ (by norm_num)]; exact h3

/-- A triangle with a texture and 2 decimal places, saved and loaded. -/
def sampleArgs : Args where
  stem := "m".toList
  verts := [(1 / 3, -2, 0), (7 / 8, 1 / 1000, 5), (12, 0, 1 / 2)]
  faces := [(0, 1, 2), (2, 1, 0)]
  decimals := some 2
  uvs := some [(0, 1), (1 / 4, 3 / 4)]
  fuv := some [(0, 1, 0), (1, 1, 1)]
  texture := some [[[1 / 2, 1, 0]]]

example : (saveObj sampleArgs).toOption.map (fun f => (String.ofList f.obj)) = some
    "\nmtllib m.mtl\nusemtl mesh\n\nv 0.33 -2.00 0.00\nv 0.88 0.00 5.00\nv 12.00 0.00 0.50\nvt 0.00 1.00\nvt 0.25 0.75\nf 1/1 2/2 3/1\nf 3/2 2/2 1/2" := by
  decide +kernel

example : ∃ f, saveObj sampleArgs = .ok f ∧ loadObj id f.fs true f.obj = .ok (expected id sampleArgs) :=
  obj_roundtrip id sampleArgs (fun _ => ⟨by decide, by intro c r e; simp [sampleArgs] at e; rw [← e.1]; decide⟩) rfl (Or.inl (by simp [sampleArgs]))
    (by simp [NonNeg, sampleArgs]) (by simp [sampleArgs]) (by
      intro l hl; simp only [sampleArgs, Option.some.injEq] at hl; subst hl; simp [NonNeg, sampleArgs])

example : (expected id sampleArgs).verts = [[33 / 100, -2, 0], [88 / 100, 0, 5], [12, 0, 1 / 2]]
    ∧ (expected id sampleArgs).ft = [(0, 1, 0), (1, 1, 1)] ∧ (expected id sampleArgs).fn = [(-1, -1, -1), (-1, -1, -1)]
    ∧ (expected id sampleArgs).fm = [0, 0]
    ∧ (expected id sampleArgs).images = some [("mesh".toList, [[[127 / 255, 1, 0]]])] := by decide +kernel

/-- A pentagon is read as the three triangles of its fan. -/
example : (parseObj "f 1 2 3 4 5\n".toList).toOption.map (·.fv) = some [(1, 2, 3), (1, 3, 4), (1, 4, 5)] := by
  decide +kernel

end P3D.Obj
