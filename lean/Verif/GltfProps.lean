/-
Proofs about `Gltf`.
-/
import Verif.Gltf
import Verif.FloatRound

set_option linter.unusedSectionVars false
set_option linter.unusedSimpArgs false
set_option linter.unusedVariables false

namespace P3D.Gltf
open Text Ply T3d

/-! ### Arrays in a buffer -/

theorem chunks_length {α : Type} (n k : Nat) (l : List α) : (chunks n k l).length = k := by
  induction k generalizing l with
  | zero => rfl
  | succ k ih => simp [chunks, ih]

theorem chunks_get {α : Type} (n : Nat) (k : Nat) (l : List α) (i : Nat) (hi : i < k) :
    (chunks n k l)[i]? = some ((l.drop (i * n)).take n) := by
  induction k generalizing l i with
  | zero => omega
  | succ k ih =>
    cases i with
    | zero => simp [chunks]
    | succ i =>
      rw [chunks, List.getElem?_cons_succ, ih _ _ (by omega), List.drop_drop]
      congr 3
      ring

/-- Size of an element. -/
def esize (t : Ty) (a : Accessor) : Nat := t.size * a.type.count

/-- Distance between the elements. -/
def strideOf (t : Ty) (a : Accessor) (v : BufferView) : Nat := if v.byteStride = 0 then esize t a else v.byteStride

theorem esize_pos (t : Ty) (a : Accessor) : 0 < esize t a := by
  unfold esize
  apply Nat.mul_pos
  · cases t <;> decide
  · cases a.type <;> decide

theorem stride_pos (t : Ty) (a : Accessor) (v : BufferView) : 0 < strideOf t a v := by
  unfold strideOf
  split_ifs with h
  · exact esize_pos t a
  · omega

/-- Where item `j` (in the order of rows) of an element lies in the file, where matrices are stored by columns. -/
def itemPos (e : ET) (j : Nat) : Nat :=
  match e.side with
  | none => j
  | some n => (j % n) * n + j / n

theorem itemPos_lt (e : ET) (j : Nat) (hj : j < e.count) : itemPos e j < e.count := by
  cases e <;> simp only [itemPos, ET.side, ET.count] at * <;> omega

theorem element_get (t : Ty) (e : ET) (s : Str) (j : Nat) (hj : j < e.count) :
    (element t e s)[j]? = some (value t (leNat ((s.drop (itemPos e j * t.size)).take t.size))) := by
  have key : ∀ (i : Nat), i < e.count → ((chunks t.size e.count s).map fun b => value t (leNat b))[i]?
      = some (value t (leNat ((s.drop (i * t.size)).take t.size))) := by
    intro i hi
    rw [List.getElem?_map, chunks_get _ _ _ _ hi, Option.map_some]
  unfold element order itemPos
  cases h : e.side with
  | none => exact key j hj
  | some n =>
    have hn : n * n = e.count := by cases e <;> simp [ET.side] at h <;> subst h <;> rfl
    have hlt := itemPos_lt e j hj
    simp only [itemPos, h] at hlt
    simp only
    rw [List.getElem?_map, List.getElem?_range (by omega), Option.map_some, List.getD_eq_getElem?_getD, key _ hlt,
      Option.getD_some]

theorem element_length (t : Ty) (e : ET) (s : Str) : (element t e s).length = e.count := by
  unfold element order
  cases h : e.side with
  | none => simp [chunks_length]
  | some n =>
    have hn : n * n = e.count := by cases e <;> simp [ET.side] at h <;> subst h <;> rfl
    simp [hn]

/-- **Accessors.** An accessor can be read if and only if the elements do not overlap, the offset is a multiple of the
size of the items, and the bytes that are left from there either suffice for `count` strides or are a multiple of
the stride.  Then item `j` of element `i` is the number at its place in the buffer, but there are only as many elements as fit. -/
theorem viewData_spec (bin : Str) (a : Accessor) (v : BufferView) (t : Ty) :
    ((∃ r, viewData bin a v t = .ok r) ↔ esize t a ≤ strideOf t a v ∧ (a.byteOffset + v.byteOffset) % t.size = 0 ∧
      (a.byteOffset + v.byteOffset + a.count * strideOf t a v ≤ bin.length ∨
        (bin.length - (a.byteOffset + v.byteOffset)) % strideOf t a v = 0)) ∧
    (∀ e, viewData bin a v t = .error e → e = .value) ∧
    ∀ r, viewData bin a v t = .ok r →
      r.length = min a.count ((bin.length - (a.byteOffset + v.byteOffset)) / strideOf t a v) ∧
      ∀ (i : Nat) (hi : i < r.length), r[i].length = a.type.count ∧ ∀ (j : Nat), j < a.type.count →
        r[i][j]? = some (value t (leNat ((bin.drop (a.byteOffset + v.byteOffset + i * strideOf t a v
          + itemPos a.type j * t.size)).take t.size))) := by
  have hsp := stride_pos t a v
  have hlen : ((bin.drop (a.byteOffset + v.byteOffset)).take (a.count * strideOf t a v)).length
      = min (a.count * strideOf t a v) (bin.length - (a.byteOffset + v.byteOffset)) := by
    rw [List.length_take, List.length_drop]
  have hq : min (a.count * strideOf t a v) (bin.length - (a.byteOffset + v.byteOffset)) / strideOf t a v
      = min a.count ((bin.length - (a.byteOffset + v.byteOffset)) / strideOf t a v) := by
    rcases le_total (a.count * strideOf t a v) (bin.length - (a.byteOffset + v.byteOffset)) with h | h
    · rw [min_eq_left h, Nat.mul_div_cancel _ hsp, min_eq_left]
      rwa [Nat.le_div_iff_mul_le hsp]
    · rw [min_eq_right h, min_eq_right]
      exact Nat.div_le_of_le_mul (by rwa [Nat.mul_comm])
  have hmod : (min (a.count * strideOf t a v) (bin.length - (a.byteOffset + v.byteOffset)) % strideOf t a v = 0) ↔
      (a.count * strideOf t a v ≤ bin.length - (a.byteOffset + v.byteOffset) ∨
        (bin.length - (a.byteOffset + v.byteOffset)) % strideOf t a v = 0) := by
    rcases le_total (a.count * strideOf t a v) (bin.length - (a.byteOffset + v.byteOffset)) with h | h
    · rw [min_eq_left h]; simp [h]
    · rw [min_eq_right h]
      constructor
      · exact Or.inr
      · rintro (h' | h')
        · rw [le_antisymm h h']; simp
        · exact h'
  have hcond : (a.count * strideOf t a v ≤ bin.length - (a.byteOffset + v.byteOffset) ∨
        (bin.length - (a.byteOffset + v.byteOffset)) % strideOf t a v = 0) ↔
      (a.byteOffset + v.byteOffset + a.count * strideOf t a v ≤ bin.length ∨
        (bin.length - (a.byteOffset + v.byteOffset)) % strideOf t a v = 0) := by
    constructor
    · rintro (h | h)
      · rcases Nat.lt_or_ge (bin.length) (a.byteOffset + v.byteOffset) with h2 | h2
        · right
          rw [Nat.sub_eq_zero_of_le h2.le]
          simp
        · left; omega
      · exact Or.inr h
    · rintro (h | h)
      · left; omega
      · exact Or.inr h
  have hunf : viewData bin a v t = if strideOf t a v < esize t a then .error .value else
      if (a.byteOffset + v.byteOffset) % t.size ≠ 0 then .error .value else
      if ((bin.drop (a.byteOffset + v.byteOffset)).take (a.count * strideOf t a v)).length % strideOf t a v ≠ 0 then
        .error .value else
      .ok ((chunks (strideOf t a v) (((bin.drop (a.byteOffset + v.byteOffset)).take
        (a.count * strideOf t a v)).length / strideOf t a v) ((bin.drop (a.byteOffset + v.byteOffset)).take
        (a.count * strideOf t a v))).map (element t a.type)) := rfl
  rw [hunf, hlen, hq, ← hcond, ← hmod]
  refine ⟨?_, ?_, ?_⟩
  · split_ifs with h1 h2 h3
    · simp; omega
    · simp; omega
    · simp; omega
    · simp; omega
  · intro e
    split_ifs <;> simp <;> exact fun h => h.symm
  · intro r
    split_ifs with h1 h2 h3
    · simp
    · simp
    · simp
    · intro hr
      simp only [Except.ok.injEq] at hr
      subst hr
      have hl : (List.map (element t a.type) (chunks (strideOf t a v)
          (min a.count ((bin.length - (a.byteOffset + v.byteOffset)) / strideOf t a v))
          (List.take (a.count * strideOf t a v) (List.drop (a.byteOffset + v.byteOffset) bin)))).length
          = min a.count ((bin.length - (a.byteOffset + v.byteOffset)) / strideOf t a v) := by
        rw [List.length_map, chunks_length]
      refine ⟨hl, fun i hi => ?_⟩
      rw [hl] at hi
      have hg : ∀ (h : i < (List.map (element t a.type) (chunks (strideOf t a v)
          (min a.count ((bin.length - (a.byteOffset + v.byteOffset)) / strideOf t a v))
          (List.take (a.count * strideOf t a v) (List.drop (a.byteOffset + v.byteOffset) bin)))).length),
          (List.map (element t a.type) (chunks (strideOf t a v)
          (min a.count ((bin.length - (a.byteOffset + v.byteOffset)) / strideOf t a v))
          (List.take (a.count * strideOf t a v) (List.drop (a.byteOffset + v.byteOffset) bin))))[i] =
          element t a.type (((((bin.drop (a.byteOffset + v.byteOffset)).take
            (a.count * strideOf t a v))).drop (i * strideOf t a v)).take (strideOf t a v)) := by
        intro h
        apply Option.some.inj
        rw [← List.getElem?_eq_getElem h, List.getElem?_map, chunks_get _ _ _ _ hi, Option.map_some]
      rw [hg]
      refine ⟨element_length _ _ _, fun j hj => ?_⟩
      rw [element_get _ _ _ _ hj]
      have hp := itemPos_lt a.type j hj
      have hfit : itemPos a.type j * t.size + t.size ≤ strideOf t a v := by
        have : (itemPos a.type j + 1) * t.size ≤ a.type.count * t.size := Nat.mul_le_mul_right _ hp
        have h5 : esize t a = a.type.count * t.size := by unfold esize; ring
        push Not at h1
        linarith
      have hi1 : i + 1 ≤ a.count := by omega
      have hi2 : i * strideOf t a v + strideOf t a v ≤ a.count * strideOf t a v := by
        have := Nat.mul_le_mul_right (strideOf t a v) hi1
        linarith
      congr 3
      rw [List.drop_take, List.take_take, List.drop_take, List.drop_take, List.take_take, List.drop_drop, List.drop_drop,
        min_eq_left (by omega)]
      rw [min_eq_left (by omega)]
      congr 2
      ring

/-- A tightly packed array is read back row by row. -/
theorem viewData_rows {a : Accessor} {v : BufferView} {t : Ty} {pre post : Str} {rows : List Str}
    (hr : ∀ r ∈ rows, r.length = esize t a) (hst : v.byteStride = 0 ∨ v.byteStride = esize t a)
    (hoff : a.byteOffset + v.byteOffset = pre.length) (hal : pre.length % t.size = 0) (hc : a.count = rows.length) :
    viewData (pre ++ rows.flatten ++ post) a v t = .ok (rows.map (element t a.type)) := by
  have hs : strideOf t a v = esize t a := by
    unfold strideOf
    split_ifs with h
    · rfl
    · exact hst.resolve_left h
  have hpos := esize_pos t a
  have hfl := flatten_length hr
  have htake : ((pre ++ rows.flatten ++ post).drop pre.length).take (a.count * esize t a) = rows.flatten := by
    rw [List.append_assoc, List.drop_left, List.take_left' (by rw [hfl, hc])]
  have hunf : viewData (pre ++ rows.flatten ++ post) a v t = if strideOf t a v < esize t a then .error .value else
      if (a.byteOffset + v.byteOffset) % t.size ≠ 0 then .error .value else
      if (((pre ++ rows.flatten ++ post).drop (a.byteOffset + v.byteOffset)).take (a.count * strideOf t a v)).length % strideOf t a v ≠ 0 then
        .error .value else
      .ok ((chunks (strideOf t a v) ((((pre ++ rows.flatten ++ post).drop (a.byteOffset + v.byteOffset)).take
        (a.count * strideOf t a v)).length / strideOf t a v) (((pre ++ rows.flatten ++ post).drop (a.byteOffset + v.byteOffset)).take
        (a.count * strideOf t a v))).map (element t a.type)) := rfl
  rw [hunf, hs, hoff, htake, hfl, if_neg (lt_irrefl _), if_neg (by simpa using hal), if_neg (by simp),
    Nat.mul_div_cancel _ hpos]
  have := chunks_flatten hr []
  rw [List.append_nil] at this
  rw [this]

/-- The array was found and is long enough. -/
theorem accessData_eq {K : Type} {C : Codec K} {d : Doc K} {glb : Option Str} {i bv : Nat} {a : Accessor} {v : BufferView} {t : Ty}
    {b : Buffer} {bin : Str}
    (ha : d.accessors[i]? = some a) (hbv : a.bufferView = some bv) (hsp : a.sparse = false)
    (hv : d.bufferViews[bv]? = some v) (hst : v.byteStride = 0 ∨ (4 ≤ v.byteStride ∧ v.byteStride ≤ 252))
    (ht : itemType a.componentType = some t) (hl : a.count * a.type.count * t.size ≤ v.byteLength)
    (hb : d.buffers[v.buffer]? = some b) (hbin : getBinary C d glb v.buffer = .ok bin) (hbl : b.byteLength ≤ bin.length) :
    accessData C d glb i = viewData bin a v t := by
  unfold accessData
  simp only [ha, hbv, hsp, hv, ht, hb, hbin]
  rw [if_neg (by simp), if_neg (by omega), if_neg (by omega), if_neg (by omega)]

/-! ### What is written -/

variable {K : Type} [Field K]

theorem fbytes_length (C : Codec K) (x : K) : (fbytes C x).length = 4 := leBytes_length 4 _

/-- A float32 number. -/
def Rep (C : Codec K) (x : K) : Prop := C.enc x < 2 ^ 32 ∧ C.dec (C.enc x) = x

theorem value_fbytes {C : Codec K} {x : K} (h : Rep C x) : num C (value .f32 (leNat (fbytes C x))) = x := by
  unfold fbytes
  rw [leNat_leBytes 4 _ (by have := h.1; norm_num at this ⊢; exact this)]
  exact h.2

theorem chunks3 {α : Type} {n : Nat} {a b c : List α} (ha : a.length = n) (hb : b.length = n) (hc : c.length = n) :
    chunks n 3 (a ++ b ++ c) = [a, b, c] := by
  have := chunks_flatten (n := n) (l := [a, b, c]) (by simp [ha, hb, hc]) []
  simpa using this

theorem chunks2 {α : Type} {n : Nat} {a b : List α} (ha : a.length = n) (hb : b.length = n) :
    chunks n 2 (a ++ b) = [a, b] := by
  have := chunks_flatten (n := n) (l := [a, b]) (by simp [ha, hb]) []
  simpa using this

theorem len_map {α : Type} {f : α → Str} {n : Nat} (h : ∀ a, (f a).length = n) (l : List α) : ∀ b ∈ l.map f, b.length = n := by
  intro b hb
  obtain ⟨a, -, rfl⟩ := List.mem_map.1 hb
  exact h a

theorem posBytes_length (C : Codec K) (l : List (V3 K)) : (posBytes C l).length = l.length * 12 := by
  unfold posBytes
  rw [flatten_length (n := 12) (len_map (by simp [fbytes_length]) _), List.length_map]

theorem idxBytes_length (l : List (V3 Int)) : (idxBytes l).length = l.length * 6 := by
  unfold idxBytes
  rw [flatten_length (n := 6) (len_map (by simp [leBytes_length]) _), List.length_map]

theorem uvBytes_length (C : Codec K) (l : List (K × K)) : (uvBytes C l).length = l.length * 8 := by
  unfold uvBytes
  rw [flatten_length (n := 8) (len_map (by simp [fbytes_length]) _), List.length_map]

theorem featBytes_eq (C : Codec K) (l : List (List K)) : featBytes C l = (l.flatten.map (fbytes C)).flatten := by
  unfold featBytes
  induction l with
  | nil => rfl
  | cons r l ih => simp [ih]

theorem featBytes_length (C : Codec K) (l : List (List K)) : (featBytes C l).length = l.flatten.length * 4 := by
  rw [featBytes_eq, flatten_length (n := 4) (len_map (fbytes_length C) _), List.length_map]

theorem flat_take (C : Codec K) (k : Nat) (l : List K) :
    ((l.map (fbytes C)).flatten).take (k * 4) = ((l.take k).map (fbytes C)).flatten := by
  induction k generalizing l with
  | zero => simp
  | succ k ih =>
    cases l with
    | nil => simp
    | cons a l =>
      rw [List.map_cons, List.flatten_cons, List.take_append, fbytes_length, List.take_of_length_le (by rw [fbytes_length]; omega),
        show (k + 1) * 4 - 4 = k * 4 by omega, ih]
      simp

theorem chunk_bytes (C : Codec K) (n : Nat) (l : List K) (h : n * 3 ≤ l.length) :
    (l.map (fbytes C)).flatten.take (n * 12) = ((chunks 3 n l).map fun r => (r.map (fbytes C)).flatten).flatten := by
  induction n generalizing l with
  | zero => simp [chunks]
  | succ n ih =>
    have hl : l = l.take 3 ++ l.drop 3 := (List.take_append_drop 3 l).symm
    have h3 : (l.take 3).length = 3 := by rw [List.length_take]; omega
    rw [chunks, List.map_cons, List.flatten_cons, ← ih (l.drop 3) (by rw [List.length_drop]; omega)]
    conv_lhs => rw [hl, List.map_append, List.flatten_append]
    have hlen : ((l.take 3).map (fbytes C)).flatten.length = 12 := by
      rw [flatten_length (n := 4) (len_map (fbytes_length C) _), List.length_map, h3]
    rw [List.take_append, hlen, List.take_of_length_le (by rw [hlen]; omega), show (n + 1) * 12 - 12 = n * 12 by omega]

theorem chunks_rows {α : Type} {n k : Nat} {l : List α} (h : k * n ≤ l.length) : ∀ r ∈ chunks n k l, r.length = n := by
  induction k generalizing l with
  | zero => simp [chunks]
  | succ k ih =>
    have : (k + 1) * n = k * n + n := by ring
    simp only [chunks, List.mem_cons, forall_eq_or_imp]
    refine ⟨by rw [List.length_take]; omega, ih (by rw [List.length_drop]; omega)⟩

theorem threes_flatten {α : Type} (l : List (V3 α)) : threes (l.flatMap fun f => [f.x, f.y, f.z]) = some l := by
  induction l with
  | nil => rfl
  | cons a l ih => simp [threes, ih]

/-! ### Opening a written file -/

variable [LinearOrder K] [IsStrictOrderedRing K] [FloorRing K]

theorem u32At_append (i n : Nat) (pre post : Str) (hp : pre.length = i) (hn : n < 2 ^ 32) :
    u32At i (pre ++ (leBytes 4 n ++ post)) = n := by
  unfold u32At
  rw [List.drop_left' hp, List.take_left' (leBytes_length 4 n), leNat_leBytes 4 _ (by norm_num at hn ⊢; exact hn)]

theorem posIdx_length (C : Codec K) (m : Mesh K) :
    (posBytes C m.verts ++ idxBytes m.faces).length = m.verts.length * 12 + m.faces.length * 6 := by
  rw [List.length_append, posBytes_length, idxBytes_length]

theorem chunkLoop_end (C : Codec K) (length fuel pos : Nat) (s : Str) (j : Option (Doc K)) (b : Option Str)
    (h : pos < length → s = []) :
    chunkLoop C length fuel pos s j b = if pos < length then .error .struct else .ok (some (j, b)) := by
  cases fuel with
  | zero => rfl
  | succ f =>
    rw [chunkLoop]
    by_cases hp : pos < length
    · rw [if_pos hp, if_pos hp, h hp, if_pos (by simp)]
    · rw [if_neg hp, if_neg hp]

theorem chunkLoop_json (C : Codec K) (length fuel pos : Nat) (js s : Str) (j : Option (Doc K)) (b : Option Str) (d : Doc K)
    (hj : C.loads js = .ok d) (hl : js.length < 2 ^ 32) (hp : pos < length) :
    chunkLoop C length (fuel + 1) pos (leBytes 4 js.length ++ (leBytes 4 jsonType ++ (js ++ s))) j b
      = chunkLoop C length fuel (pos + 8 + js.length) s (some d) b := by
  have e1 := u32At_append 0 js.length [] (leBytes 4 jsonType ++ (js ++ s)) rfl hl
  have e2 := u32At_append 4 jsonType (leBytes 4 js.length) (js ++ s) (leBytes_length 4 _) (by decide)
  rw [List.nil_append] at e1
  have e3 : (leBytes 4 js.length ++ (leBytes 4 jsonType ++ (js ++ s))).drop 8 = js ++ s := by
    rw [← List.append_assoc]
    exact List.drop_left' (by simp [leBytes_length])
  rw [chunkLoop, if_pos hp, if_neg (by simp [leBytes_length]; try omega)]
  simp only [e1, e2, if_true]
  rw [← List.drop_drop, e3, List.take_left, List.drop_left, hj]

theorem chunkLoop_bin (C : Codec K) (length fuel pos n : Nat) (s : Str) (j : Option (Doc K)) (b : Option Str)
    (hn : n < 2 ^ 32) (hp : pos < length) :
    chunkLoop C length (fuel + 1) pos (leBytes 4 n ++ (leBytes 4 binType ++ s)) j b
      = chunkLoop C length fuel (pos + 8 + (s.take n).length) (s.drop n) j (some (s.take n)) := by
  have e1 := u32At_append 0 n [] (leBytes 4 binType ++ s) rfl hn
  have e2 := u32At_append 4 binType (leBytes 4 n) s (leBytes_length 4 _) (by decide)
  rw [List.nil_append] at e1
  have e3 : (leBytes 4 n ++ (leBytes 4 binType ++ s)).drop 8 = s := by
    rw [← List.append_assoc]
    exact List.drop_left' (by simp [leBytes_length])
  rw [chunkLoop, if_pos hp, if_neg (by simp [leBytes_length]; try omega)]
  simp only [e1, e2, if_true]
  rw [if_neg (by decide), ← List.drop_drop, e3]

/-- A file that was written opens if and only if at least as many bytes follow as were announced; then the loader has the
JSON and the announced number of bytes. -/
theorem openFile_save {C : Codec K} {m : Mesh K} {s : Str} {m' : Mesh K} (h : save C m = .ok (s, m'))
    (hj : C.loads (C.dumps (docOf C m)) = .ok (docOf C m)) :
    openFile C s = if announced C m ≤ (payload C m).length
      then .ok (some (docOf C m, some ((payload C m).take (announced C m)))) else .error .struct := by
  unfold save at h
  split_ifs at h with h1
  · simp only at h
    split_ifs at h
    rename_i h2
    push Not at h2
    simp only [Except.ok.injEq, Prod.mk.injEq] at h
    obtain ⟨rfl, -⟩ := h
    generalize C.dumps (docOf C m) = js at *
    generalize payload C m = pl at *
    generalize announced C m = n at *
    have a1 : leBytes 4 magic ++ leBytes 4 2 ++ leBytes 4 (js.length + n + 28) ++ leBytes 4 js.length
        ++ leBytes 4 jsonType ++ js ++ leBytes 4 n ++ leBytes 4 binType ++ pl
        = leBytes 4 magic ++ (leBytes 4 2 ++ (leBytes 4 (js.length + n + 28) ++ (leBytes 4 js.length ++
          (leBytes 4 jsonType ++ (js ++ (leBytes 4 n ++ (leBytes 4 binType ++ pl))))))) := by simp only [List.append_assoc]
    rw [a1]
    have b1 := u32At_append 0 magic [] (leBytes 4 2 ++ (leBytes 4 (js.length + n + 28) ++ (leBytes 4 js.length ++
          (leBytes 4 jsonType ++ (js ++ (leBytes 4 n ++ (leBytes 4 binType ++ pl))))))) rfl (by decide)
    have b2 := u32At_append 4 2 (leBytes 4 magic) (leBytes 4 (js.length + n + 28) ++ (leBytes 4 js.length ++
          (leBytes 4 jsonType ++ (js ++ (leBytes 4 n ++ (leBytes 4 binType ++ pl)))))) (leBytes_length 4 _) (by decide)
    have b3 := u32At_append 8 (js.length + n + 28) (leBytes 4 magic ++ leBytes 4 2) (leBytes 4 js.length ++
          (leBytes 4 jsonType ++ (js ++ (leBytes 4 n ++ (leBytes 4 binType ++ pl))))) (by simp [leBytes_length]) h2
    rw [List.append_assoc] at b3
    rw [List.nil_append] at b1
    have b4 : (leBytes 4 magic ++ (leBytes 4 2 ++ (leBytes 4 (js.length + n + 28) ++ (leBytes 4 js.length ++
          (leBytes 4 jsonType ++ (js ++ (leBytes 4 n ++ (leBytes 4 binType ++ pl)))))))).drop 12
        = leBytes 4 js.length ++ (leBytes 4 jsonType ++ (js ++ (leBytes 4 n ++ (leBytes 4 binType ++ pl)))) := by
      rw [← List.append_assoc, ← List.append_assoc]
      exact List.drop_left' (by simp [leBytes_length])
    unfold openFile readHeader
    rw [if_neg (by simp [leBytes_length]; try omega), b1, b2, b3, if_neg (by simp)]
    simp only [ne_eq, not_true_eq_false, if_false]
    rw [b4]
    unfold readChunks
    have hf : ∃ f, (leBytes 4 js.length ++ (leBytes 4 jsonType ++ (js ++ (leBytes 4 n ++ (leBytes 4 binType ++ pl))))).length
        = f + 1 + 1 := by
      refine ⟨js.length + pl.length + 14, ?_⟩
      simp only [List.length_append, leBytes_length]
      omega
    obtain ⟨f, hf⟩ := hf
    rw [hf, chunkLoop_json C _ _ _ _ _ _ _ _ hj (by omega) (by omega), chunkLoop_bin C _ _ _ _ _ _ _ (by omega) (by omega),
      chunkLoop_end]
    · by_cases hle : n ≤ pl.length
      · rw [if_pos hle, if_neg (by rw [List.length_take]; omega)]
      · rw [if_neg hle, if_pos (by rw [List.length_take]; omega)]
    · intro hlt
      rw [List.length_take] at hlt
      exact List.drop_of_length_le (by omega)

/-! ### Loading a written file -/

theorem payload_eq (C : Codec K) (m : Mesh K) (h : announced C m ≤ (payload C m).length) :
    (payload C m).take (announced C m) = posBytes C m.verts ++ idxBytes m.faces ++
      ((texPart C m.tex).2 ++ imgPart C m.tex).take ((texPart C m.tex).1 + (imgPart C m.tex).length) := by
  unfold payload announced
  rw [List.append_assoc _ (texPart C m.tex).2, List.take_append, posIdx_length, List.take_of_length_le (by rw [posIdx_length]; omega)]
  congr 2
  omega

/-- The bytes that the loader has. -/
def savedBin (C : Codec K) (m : Mesh K) : Str := (payload C m).take (announced C m)

theorem savedBin_length (C : Codec K) (m : Mesh K) (h : announced C m ≤ (payload C m).length) :
    (savedBin C m).length = announced C m := by
  unfold savedBin
  rw [List.length_take, min_eq_left h]

theorem getBinary_saved (C : Codec K) (m : Mesh K) : getBinary C (docOf C m) (some (savedBin C m)) 0 = .ok (savedBin C m) := rfl

theorem access_pos (C : Codec K) (m : Mesh K) (h : announced C m ≤ (payload C m).length) (hr : ∀ v ∈ m.verts, Rep C v.x ∧ Rep C v.y ∧ Rep C v.z) :
    ∃ rows, accessData C (docOf C m) (some (savedBin C m)) 0 = .ok rows ∧
      (rows.map (·.map (num C))) = m.verts.map fun v => [v.x, v.y, v.z] := by
  have h1 := accessData_eq (C := C) (d := docOf C m) (glb := some (savedBin C m)) (i := 0) (bv := 0) (t := .f32) rfl rfl rfl rfl
    (Or.inr (by norm_num)) rfl (by simp only [ET.count, Ty.size]; omega) rfl rfl (by rw [savedBin_length C m h]; exact le_refl _)
  have h2 := viewData_rows (a := { bufferView := some 0, componentType := 5126, count := m.verts.length, type := .vec3 })
    (v := { buffer := 0, byteLength := m.verts.length * 12, byteOffset := 0, byteStride := 12, hasStride := true })
    (t := .f32) (pre := []) (post := idxBytes m.faces ++
      ((texPart C m.tex).2 ++ imgPart C m.tex).take ((texPart C m.tex).1 + (imgPart C m.tex).length))
    (rows := m.verts.map fun v => fbytes C v.x ++ fbytes C v.y ++ fbytes C v.z)
    (len_map (by simp [fbytes_length, esize, ET.count, Ty.size]) _) (Or.inr rfl) rfl rfl (by simp)
  refine ⟨_, h1.trans (Eq.trans ?_ h2), ?_⟩
  · unfold savedBin
    rw [payload_eq C m h, List.nil_append, List.append_assoc]
    rfl
  · rw [List.map_map, List.map_map]
    refine List.map_congr_left fun v hv => ?_
    obtain ⟨hx, hy, hz⟩ := hr v hv
    simp only [Function.comp_def, element, order, ET.side, ET.count, Ty.size]
    rw [chunks3 (fbytes_length C _) (fbytes_length C _) (fbytes_length C _)]
    simp [value_fbytes hx, value_fbytes hy, value_fbytes hz]

theorem idx16_lt (i : Int) : idx16 i < 65536 := by
  unfold idx16
  omega

/-- An index as it comes back. -/
def back (f : V3 Int) : V3 Int := ⟨f.x % 65536, f.y % 65536, f.z % 65536⟩

theorem access_idx (C : Codec K) (m : Mesh K) (h : announced C m ≤ (payload C m).length) :
    ∃ rows, accessData C (docOf C m) (some (savedBin C m)) 1 = .ok rows ∧
      rows.flatten.map (valInt C) = (m.faces.map back).flatMap fun f => [f.x, f.y, f.z] := by
  have h1 := accessData_eq (C := C) (d := docOf C m) (glb := some (savedBin C m)) (i := 1) (bv := 1) (t := .u16) rfl rfl rfl rfl
    (Or.inl rfl) rfl (by simp only [ET.count, Ty.size]; omega) rfl rfl (by rw [savedBin_length C m h]; exact le_refl _)
  have hfl : ∀ l : List (V3 Int), idxBytes l = ((l.flatMap fun f => [idx16 f.x, idx16 f.y, idx16 f.z]).map (leBytes 2)).flatten := by
    intro l
    unfold idxBytes
    induction l with
    | nil => rfl
    | cons a l ih => simp only [List.map_cons, List.flatten_cons, ih, List.flatMap_cons, List.map_append, List.flatten_append,
        List.map_nil, List.flatten_nil, List.append_nil, ← List.append_assoc]
  have h2 := viewData_rows (a := { bufferView := some 1, componentType := 5123, count := m.faces.length * 3, type := .scalar })
    (v := { buffer := 0, byteLength := m.faces.length * 6, byteOffset := m.verts.length * 12 })
    (t := .u16) (pre := posBytes C m.verts) (post :=
      ((texPart C m.tex).2 ++ imgPart C m.tex).take ((texPart C m.tex).1 + (imgPart C m.tex).length))
    (rows := (m.faces.flatMap fun f => [idx16 f.x, idx16 f.y, idx16 f.z]).map (leBytes 2))
    (len_map (by simp [leBytes_length, esize, ET.count, Ty.size]) _) (Or.inl rfl) (by rw [posBytes_length]; simp)
    (by rw [posBytes_length]; simp only [Ty.size]; omega) (by simp [List.length_flatMap]; try ring)
  refine ⟨_, h1.trans (Eq.trans ?_ h2), ?_⟩
  · unfold savedBin
    rw [payload_eq C m h, hfl]
  · have he : ∀ n : Nat, n < 65536 → element .u16 .scalar (leBytes 2 n) = [.int n] := by
      intro n hn
      simp only [element, order, ET.side, ET.count, chunks, Ty.size, List.map_cons, List.map_nil]
      rw [List.take_of_length_le (by rw [leBytes_length]), leNat_leBytes 2 n (by norm_num; exact hn)]
      simp [value, Ty.isSigned]
    have hb : ∀ i : Int, ((idx16 i : Nat) : Int) = i % 65536 := by intro i; unfold idx16; omega
    generalize m.faces = l
    induction l with
    | nil => rfl
    | cons f l ih =>
      simp only [List.flatMap_cons, List.map_append, List.map_cons, List.map_nil, List.flatten_append, List.flatten_cons,
        List.flatten_nil, he _ (idx16_lt _), List.cons_append, List.nil_append, back] at ih ⊢
      rw [ih]
      simp [valInt, hb]

theorem mapM_toV3 {α : Type} (l : List (V3 α)) : (l.map fun v => [v.x, v.y, v.z]).mapM toV3 = some l := by
  induction l with
  | nil => rfl
  | cons a l ih => simp [List.mapM_cons, toV3, ih]

/-- With a single matrix every point is transformed by it. -/
theorem place_matrix {T : T3 K} {M : M4 K} (hT : getMatrix T = some [M]) {rows : List (List K)} {ps : List (V3 K)}
    (hr : rows.mapM toV3 = some ps) : place T rows = .ok (ps.map fun p => transformPoint none p M) := by
  unfold place
  simp only [hr]
  unfold transformPoints
  rw [hT]
  simp [bcast, blen, Pts.toBatch, pick, outShape]

theorem transformPoint_one (p : V3 K) : transformPoint none p (1 : M4 K) = p := by
  rw [← affine_one, transformPoint_affine]
  ext <;> simp [M3.vecMul]

/-- The transform of the only node that is written. -/
def savedT : T3 K := compose (compose (.mk .base .f32 [1] []) []) [identity]

theorem savedT_matrix : getMatrix (savedT : T3 K) = some [1] := by
  have : matB (savedT : T3 K) = 1 := by
    unfold savedT
    rw [matB_compose, matB_compose]
    have h : matB (identity : T3 K) = 1 := by
      unfold identity
      rw [matB_mk, List.map_nil, List.prod_nil, mul_one]
      rfl
    have h' : matB (.mk .base .f32 [1] [] : T3 K) = 1 := h
    simp [h, h']
  exact this

/-- The only primitive. -/
def savedPrim (m : Mesh K) : Primitive :=
  match m.tex with
  | none => { position := 0, indices := some 1 }
  | some (.vertex _) => { position := 0, color := some 2, indices := some 1 }
  | some (.uv _ _ _) => { position := 0, texcoord := some 2, indices := some 1, material := 0 }

/-- The name in the file. -/
def savedName : Option Str := some "Node-Mesh".toList

theorem load_saved (C : Codec K) (m : Mesh K) (tex : Bool) (fuel : Nat) :
    load C (docOf C m) (some (savedBin C m)) tex (fuel + 1) =
      match loadPrim C (docOf C m) (some (savedBin C m)) tex savedT (savedPrim m) with
      | .error e => .error e
      | .ok x => .ok (some [(savedName, x)]) := by
  have h1 : load C (docOf C m) (some (savedBin C m)) tex (fuel + 1)
      = queueLoop (visit C (docOf C m) (some (savedBin C m)) tex) (fuel + 1) [(identity, 0)] [] := rfl
  have h2 : visit C (docOf C m) (some (savedBin C m)) tex ((identity, 0) : T3 K × Nat) =
      match [savedPrim m].mapM (loadPrim C (docOf C m) (some (savedBin C m)) tex savedT) with
      | .error e => .error e
      | .ok ms => .ok (ms.map fun x => (savedName, x), []) := rfl
  rw [h1, queueLoop, h2]
  simp only [List.mapM_cons, List.mapM_nil, bind, Except.bind, pure, Except.pure]
  cases loadPrim C (docOf C m) (some (savedBin C m)) tex savedT (savedPrim m) with
  | error e => rfl
  | ok x => simp [queueLoop]

theorem loadPrim_saved (C : Codec K) (m : Mesh K) (tex : Bool) (h : announced C m ≤ (payload C m).length)
    (hr : ∀ v ∈ m.verts, Rep C v.x ∧ Rep C v.y ∧ Rep C v.z) :
    loadPrim C (docOf C m) (some (savedBin C m)) tex savedT (savedPrim m) =
      match (if tex then texture C (docOf C m) (some (savedBin C m)) (savedPrim m) (m.faces.map back) else .ok none) with
      | .error e => .error e
      | .ok t => if texOk m.verts.length t then .ok ⟨m.verts, m.faces.map back, t⟩ else .error .value := by
  obtain ⟨rows, hp1, hp2⟩ := access_pos C m h hr
  obtain ⟨irows, hi1, hi2⟩ := access_idx C m h
  have q1 : (savedPrim m).position = 0 := by unfold savedPrim; split <;> rfl
  have q2 : (savedPrim m).indices = some 1 := by unfold savedPrim; split <;> rfl
  have q3 : (savedPrim m).mode = 4 := by unfold savedPrim; split <;> rfl
  have hpl : place (savedT : T3 K) (rows.map (·.map (num C))) = .ok m.verts := by
    rw [hp2, place_matrix savedT_matrix (mapM_toV3 _)]
    simp [transformPoint_one]
  have hf : faceIndices C (docOf C m) (some (savedBin C m)) (savedPrim m) m.verts.length = .ok (m.faces.map back) := by
    unfold faceIndices
    simp only [q2, hi1, hi2, threes_flatten]
  unfold loadPrim
  simp only [q1, hp1, hpl, q3, hf, ne_eq, not_true_eq_false, if_false]
  rfl

theorem viewData_misaligned {bin : Str} {a : Accessor} {v : BufferView} {t : Ty}
    (h : (a.byteOffset + v.byteOffset) % t.size ≠ 0) : viewData bin a v t = .error .value := by
  have hs := viewData_spec bin a v t
  cases hv : viewData bin a v t with
  | error e => rw [hs.2.1 e hv]
  | ok r => exact absurd (hs.1.1 ⟨r, hv⟩).2.1 h

theorem texture_none (C : Codec K) (m : Mesh K) (hm : m.tex = none) (faces : List (V3 Int)) :
    texture C (docOf C m) (some (savedBin C m)) (savedPrim m) faces = .ok none := by
  unfold texture savedPrim
  rw [hm]
  rfl

/-- Vertex colours are found at a place that is a multiple of 4 bytes only if the number of faces is even; the numbers
are taken in threes, however many channels there were. -/
theorem texture_vertex (C : Codec K) (m : Mesh K) {f : List (List K)} (hm : m.tex = some (.vertex f))
    (h : announced C m ≤ (payload C m).length) (hr : ∀ r ∈ f, ∀ x ∈ r, Rep C x) (faces : List (V3 Int)) :
    texture C (docOf C m) (some (savedBin C m)) (savedPrim m) faces =
      if m.faces.length % 2 = 0 then .ok (some (.vertex (chunks 3 f.length f.flatten))) else .error .value := by
  obtain ⟨verts, mf, mt⟩ := m
  simp only at hm
  subst hm
  set m : Mesh K := ⟨verts, mf, some (.vertex f)⟩ with hmdef
  have hlen : f.length * 3 ≤ f.flatten.length := by
    unfold announced payload at h
    simp only [hmdef, texPart, imgPart, List.length_append, posBytes_length, idxBytes_length, featBytes_length, List.length_nil] at h
    omega
  have h1 := accessData_eq (C := C) (d := docOf C m) (glb := some (savedBin C m)) (i := 2) (bv := 2) (t := .f32)
    (a := { bufferView := some 2, componentType := 5126, count := f.length, type := .vec3 })
    (v := { buffer := 0, byteLength := f.length * 12, byteOffset := verts.length * 12 + mf.length * 6, byteStride := 12, hasStride := true })
    rfl rfl rfl rfl (Or.inr (by norm_num)) rfl (by simp only [ET.count, Ty.size]; omega) rfl rfl
    (by rw [savedBin_length C m h]; exact le_refl _)
  have hgoal : texture C (docOf C m) (some (savedBin C m)) (savedPrim m) faces =
      match accessData C (docOf C m) (some (savedBin C m)) 2 with
      | .error e => .error e
      | .ok l => .ok (some (.vertex (l.map (·.map (num C))))) := by
    have ha : attr C (docOf C m) (some (savedBin C m)) (savedPrim m).color =
      match accessData C (docOf C m) (some (savedBin C m)) 2 with
      | .error e => .error e
      | .ok l => .ok (some (l.map (·.map (num C)))) := rfl
    unfold texture
    rw [ha]
    cases accessData C (docOf C m) (some (savedBin C m)) 2 <;> rfl
  rw [hgoal, h1]
  split_ifs with hF
  · have h2 := viewData_rows (a := { bufferView := some 2, componentType := 5126, count := f.length, type := .vec3 })
      (v := { buffer := 0, byteLength := f.length * 12, byteOffset := verts.length * 12 + mf.length * 6, byteStride := 12, hasStride := true })
      (t := .f32) (pre := posBytes C verts ++ idxBytes mf) (post := [])
      (rows := (chunks 3 f.length f.flatten).map fun r => (r.map (fbytes C)).flatten)
      (by
        intro b hb
        obtain ⟨r, hr, rfl⟩ := List.mem_map.1 hb
        rw [flatten_length (n := 4) (len_map (fbytes_length C) _), List.length_map, chunks_rows hlen r hr]
        rfl) (Or.inr rfl) (by rw [List.length_append, posBytes_length, idxBytes_length]; simp)
      (by rw [List.length_append, posBytes_length, idxBytes_length]; simp only [Ty.size]; simp only [hmdef] at hF; omega)
      (by simp [chunks_length])
    have h3 : savedBin C m = posBytes C verts ++ idxBytes mf ++ ((chunks 3 f.length f.flatten).map fun r => (r.map (fbytes C)).flatten).flatten ++ [] := by
      unfold savedBin
      rw [payload_eq C m h]
      simp only [hmdef, texPart, imgPart, List.append_nil, List.length_nil, Nat.add_zero]
      rw [featBytes_eq, chunk_bytes C _ _ hlen]
    rw [h3, h2]
    simp only
    rw [List.map_map, List.map_map]
    congr 3
    have hid : ∀ r ∈ chunks 3 f.length f.flatten, (((fun x => List.map (num C) x) ∘ element Ty.f32 ET.vec3) ∘ fun r => (r.map (fbytes C)).flatten) r = r := by
      intro r hr'
      have h3 := chunks_rows hlen r hr'
      have hmem : ∀ x ∈ r, Rep C x := by
        intro x hx
        have : ∀ (n : Nat) (l : List K), r ∈ chunks 3 n l → ∀ x ∈ r, x ∈ l := by
          intro n
          induction n with
          | zero => simp [chunks]
          | succ n ih =>
            intro l hl x hx
            simp only [chunks, List.mem_cons] at hl
            rcases hl with rfl | hl
            · exact List.mem_of_mem_take hx
            · exact List.mem_of_mem_drop (ih _ hl x hx)
        obtain ⟨q, hq, hxq⟩ := List.mem_flatten.1 (this _ _ hr' x hx)
        exact hr q hq x hxq
      match r, h3, hmem with
      | [a, b, c], _, hmem =>
        have e : (List.map (fbytes C) [a, b, c]).flatten = fbytes C a ++ fbytes C b ++ fbytes C c := by simp
        simp only [Function.comp_def, e, element, order, ET.side, ET.count, Ty.size]
        rw [chunks3 (fbytes_length C _) (fbytes_length C _) (fbytes_length C _)]
        simp [value_fbytes (hmem a (by simp)), value_fbytes (hmem b (by simp)), value_fbytes (hmem c (by simp))]
    rw [List.map_congr_left hid]
    simp
  · rw [viewData_misaligned]
    simp only [Ty.size]
    simp only [hmdef] at hF
    omega

/-- A colour of the map as it comes back. -/
def backColour (x : K) : K := (quant x : K) / 255

/-- The image that is written is read back by the library. -/
def PngOk (C : Codec K) (im : Img K) : Prop :=
  C.unpng (C.png (im.map (·.map (·.map quant)))) = .ok (true, im.map (·.map (·.map fun x => (quant x : K))))

theorem mapM_uvRow (l : List (K × K)) : (l.map fun r => [r.1, r.2]).mapM uvRow = .ok (l.map fun r => (r.1, 1 - r.2)) := by
  induction l with
  | nil => rfl
  | cons a l ih => simp [List.mapM_cons, uvRow, ih]; rfl

/-- Texture coordinates: the same condition on the number of faces; faces of the mesh instead of those of the texture,
and colours rounded down to multiples of 1/255. -/
theorem texture_uv (C : Codec K) (m : Mesh K) {im : Img K} {fu : List (V3 Int)} {u : List (K × K)} (hm : m.tex = some (.uv im fu u))
    (hr : ∀ r ∈ u, Rep C r.1 ∧ Rep C (1 - r.2)) (hpng : PngOk C im) (faces : List (V3 Int)) :
    texture C (docOf C m) (some (savedBin C m)) (savedPrim m) faces =
      if m.faces.length % 2 = 0 then
        .ok (some (.uv (im.map (·.map fun px => (px.take 3).map backColour)) faces u)) else .error .value := by
  obtain ⟨verts, mf, mt⟩ := m
  simp only at hm
  subst hm
  set m : Mesh K := ⟨verts, mf, some (.uv im fu u)⟩ with hmdef
  have h : announced C m ≤ (payload C m).length := by
    unfold announced payload
    simp only [hmdef, texPart, List.length_append, posBytes_length, idxBytes_length, uvBytes_length]
    omega
  have h1 := accessData_eq (C := C) (d := docOf C m) (glb := some (savedBin C m)) (i := 2) (bv := 2) (t := .f32)
    (a := { bufferView := some 2, componentType := 5126, count := u.length, type := .vec2 })
    (v := { buffer := 0, byteLength := u.length * 8, byteOffset := verts.length * 12 + mf.length * 6, byteStride := 8, hasStride := true })
    rfl rfl rfl rfl (Or.inr (by norm_num)) rfl (by simp only [ET.count, Ty.size]; omega) rfl rfl
    (by rw [savedBin_length C m h]; exact le_refl _)
  have hgoal : texture C (docOf C m) (some (savedBin C m)) (savedPrim m) faces =
      match accessData C (docOf C m) (some (savedBin C m)) 2 with
      | .error e => .error e
      | .ok l =>
        match (l.map (·.map (num C))).mapM uvRow with
        | .error e => .error e
        | .ok uvs =>
          match image C (docOf C m) (some (savedBin C m)) 0 with
          | .error e => .error e
          | .ok im => .ok (some (.uv im faces uvs)) := by
    have ha : attr C (docOf C m) (some (savedBin C m)) (savedPrim m).color = .ok none := rfl
    have hb : attr C (docOf C m) (some (savedBin C m)) (savedPrim m).texcoord =
      match accessData C (docOf C m) (some (savedBin C m)) 2 with
      | .error e => .error e
      | .ok l => .ok (some (l.map (·.map (num C)))) := rfl
    have hc : texMap C (docOf C m) (some (savedBin C m)) (savedPrim m) = image C (docOf C m) (some (savedBin C m)) 0 := rfl
    unfold texture
    rw [ha, hb, hc]
    cases accessData C (docOf C m) (some (savedBin C m)) 2 <;> rfl
  rw [hgoal, h1]
  have h3 : savedBin C m = posBytes C verts ++ idxBytes mf ++ (u.map fun r => fbytes C r.1 ++ fbytes C (1 - r.2)).flatten ++
      C.png (im.map (·.map (·.map quant))) := by
    unfold savedBin
    rw [payload_eq C m h]
    simp only [hmdef, texPart, imgPart]
    rw [List.take_of_length_le (by rw [List.length_append, uvBytes_length])]
    simp only [List.append_assoc]
    rfl
  split_ifs with hF
  · have h2 := viewData_rows (a := { bufferView := some 2, componentType := 5126, count := u.length, type := .vec2 })
      (v := { buffer := 0, byteLength := u.length * 8, byteOffset := verts.length * 12 + mf.length * 6, byteStride := 8, hasStride := true })
      (t := .f32) (pre := posBytes C verts ++ idxBytes mf) (post := C.png (im.map (·.map (·.map quant))))
      (rows := u.map fun r => fbytes C r.1 ++ fbytes C (1 - r.2))
      (len_map (by simp [fbytes_length, esize, ET.count, Ty.size]) _) (Or.inr rfl)
      (by rw [List.length_append, posBytes_length, idxBytes_length]; simp)
      (by rw [List.length_append, posBytes_length, idxBytes_length]; simp only [Ty.size]; simp only [hmdef] at hF; omega)
      (by simp)
    rw [← h3] at h2
    rw [h2]
    have hrow : ((u.map fun r => fbytes C r.1 ++ fbytes C (1 - r.2)).map (element .f32 .vec2)).map (·.map (num C))
        = (u.map fun r => (r.1, 1 - r.2)).map fun r => [r.1, r.2] := by
      rw [List.map_map, List.map_map, List.map_map]
      refine List.map_congr_left fun r hr' => ?_
      obtain ⟨hx, hy⟩ := hr r hr'
      simp only [Function.comp_def, element, order, ET.side, ET.count, Ty.size]
      rw [chunks2 (fbytes_length C _) (fbytes_length C _)]
      simp [value_fbytes hx, value_fbytes hy]
    have himg : image C (docOf C m) (some (savedBin C m)) 0 = .ok (im.map (·.map fun px => (px.take 3).map backColour)) := by
      have hi : image C (docOf C m) (some (savedBin C m)) 0 =
          match C.unpng (((savedBin C m).drop (verts.length * 12 + mf.length * 6 + u.length * 8)).take (C.png (im.map (·.map (·.map quant)))).length) with
          | .error e => .error e
          | .ok (u8, im) => .ok (im.map (·.map fun px => (px.take 3).map fun x => if u8 then x / 255 else x)) := rfl
      have hd : ((savedBin C m).drop (verts.length * 12 + mf.length * 6 + u.length * 8)).take (C.png (im.map (·.map (·.map quant)))).length
          = C.png (im.map (·.map (·.map quant))) := by
        rw [h3, List.drop_left', List.take_length]
        have := uvBytes_length C u
        unfold uvBytes at this
        rw [List.length_append, List.length_append, posBytes_length, idxBytes_length, this]
      rw [hi, hd, hpng]
      simp only [List.map_map, Function.comp_def, if_true, List.map_take]
      rfl
    simp only
    rw [hrow, mapM_uvRow, himg]
    simp only [List.map_map, Function.comp_def, sub_sub_cancel]
    simp
  · rw [viewData_misaligned]
    simp only [Ty.size]
    simp only [hmdef] at hF
    omega

/-! ### Round trips -/

/-- A mesh can be written exactly if no array is empty and the file is shorter than 2^32 bytes. -/
theorem save_ok (C : Codec K) (m : Mesh K) : (∃ r, save C m = .ok r) ↔
    (m.verts ≠ [] ∧ m.faces ≠ [] ∧ (∀ f, m.tex = some (.vertex f) → f ≠ []) ∧ (∀ im fu u, m.tex = some (.uv im fu u) → u ≠ [])) ∧
    (C.dumps (docOf C m)).length + announced C m + 28 < 2 ^ 32 := by
  have he : emptyData m = false ↔ m.verts ≠ [] ∧ m.faces ≠ [] ∧ (∀ f, m.tex = some (.vertex f) → f ≠ []) ∧
      (∀ im fu u, m.tex = some (.uv im fu u) → u ≠ []) := by
    obtain ⟨v, f, t⟩ := m
    rcases t with _ | ⟨f⟩ | ⟨im, fu, u⟩ <;> simp [emptyData, List.isEmpty_eq_false_iff, and_assoc]
  rw [← he]
  unfold save
  split_ifs with h1
  · simp [h1]
  · simp only
    split_ifs with h2
    · simp; omega
    · simp [h1]; omega

theorem loadMeshes_save {C : Codec K} {m : Mesh K} {s : Str} {m' : Mesh K} (h : save C m = .ok (s, m'))
    (hj : C.loads (C.dumps (docOf C m)) = .ok (docOf C m))
    (hr : ∀ v ∈ m.verts, Rep C v.x ∧ Rep C v.y ∧ Rep C v.z) (tex : Bool) (fuel : Nat) (hp : announced C m ≤ (payload C m).length) :
    loadMeshes C s tex (fuel + 1) =
      match (if tex then texture C (docOf C m) (some (savedBin C m)) (savedPrim m) (m.faces.map back) else .ok none) with
      | .error e => .error e
      | .ok t => if texOk m.verts.length t then .ok (some [(savedName, ⟨m.verts, m.faces.map back, t⟩)]) else .error .value := by
  unfold loadMeshes
  rw [openFile_save h hj, if_pos hp]
  show load C (docOf C m) (some (savedBin C m)) tex (fuel + 1) = _
  rw [load_saved, loadPrim_saved C m tex hp hr]
  cases (if tex then texture C (docOf C m) (some (savedBin C m)) (savedPrim m) (m.faces.map back) else .ok none) with
  | error e => rfl
  | ok t => simp only; split_ifs <;> rfl

/-- An index survives if and only if it fits into 16 bits. -/
theorem back_eq (f : V3 Int) : back f = f ↔ (0 ≤ f.x ∧ f.x < 65536) ∧ (0 ≤ f.y ∧ f.y < 65536) ∧ 0 ≤ f.z ∧ f.z < 65536 := by
  unfold back
  constructor
  · intro h
    have h1 := congrArg V3.x h
    have h2 := congrArg V3.y h
    have h3 := congrArg V3.z h
    simp only at h1 h2 h3
    omega
  · rintro ⟨h1, h2, h3⟩
    ext <;> simp only <;> omega

/-- **Round trip without textures**, and of the geometry of a mesh with texture coordinates. -/
theorem glb_geometry {C : Codec K} {m : Mesh K} {s : Str} {m' : Mesh K} (h : save C m = .ok (s, m'))
    (hj : C.loads (C.dumps (docOf C m)) = .ok (docOf C m))
    (hr : ∀ v ∈ m.verts, Rep C v.x ∧ Rep C v.y ∧ Rep C v.z) (tex : Bool) (fuel : Nat)
    (ht : m.tex = none ∨ (tex = false ∧ ∀ f, m.tex ≠ some (.vertex f))) :
    loadMeshes C s tex (fuel + 1) = .ok (some [(savedName, ⟨m.verts, m.faces.map back, none⟩)]) ∧ (m.tex = none → m' = m) ∧
    (m.faces.map back = m.faces ↔ ∀ f ∈ m.faces, (0 ≤ f.x ∧ f.x < 65536) ∧ (0 ≤ f.y ∧ f.y < 65536) ∧ 0 ≤ f.z ∧ f.z < 65536) := by
  have hp : announced C m ≤ (payload C m).length := by
    unfold announced payload
    rcases hm : m.tex with _ | ⟨f⟩ | ⟨im, fu, u⟩
    · simp [texPart, imgPart, posBytes_length, idxBytes_length]
    · rcases ht with ht | ht
      · rw [ht] at hm; simp at hm
      · exact absurd hm (ht.2 f)
    · simp only [texPart, List.length_append, posBytes_length, idxBytes_length, uvBytes_length]
      omega
  refine ⟨?_, ?_, ?_⟩
  · rw [loadMeshes_save h hj hr tex fuel hp]
    have : (if tex then texture C (docOf C m) (some (savedBin C m)) (savedPrim m) (m.faces.map back) else .ok none)
        = .ok none := by
      rcases ht with ht | ht
      · rw [texture_none C m ht]; simp
      · simp [ht.1]
    rw [this]
    rfl
  · intro hm
    unfold save at h
    split_ifs at h
    simp only at h
    split_ifs at h
    simp only [Except.ok.injEq, Prod.mk.injEq] at h
    rw [← h.2]
    unfold afterSave
    rw [hm]
    cases m
    simp_all
  · constructor
    · intro he f hf
      rw [← back_eq]
      have : ∀ (l : List (V3 Int)), l.map back = l → ∀ f ∈ l, back f = f := by
        intro l
        induction l with
        | nil => simp
        | cons a l ih =>
          intro h f hf
          simp only [List.map_cons, List.cons.injEq] at h
          rcases List.mem_cons.1 hf with rfl | hf
          · exact h.1
          · exact ih h.2 f hf
      exact this _ he f hf
    · intro he
      conv_rhs => rw [← List.map_id m.faces]
      exact List.map_congr_left fun f hf => (back_eq f).2 (he f hf)

/-- **Round trip with vertex colours.** With less than three numbers per vertex the file cannot be opened; with an odd
number of faces the colours cannot be read; otherwise the numbers come back in threes, which are the colours if these have
three channels. -/
theorem glb_vertex {C : Codec K} {m : Mesh K} {s : Str} {m' : Mesh K} (h : save C m = .ok (s, m'))
    (hj : C.loads (C.dumps (docOf C m)) = .ok (docOf C m))
    (hr : ∀ v ∈ m.verts, Rep C v.x ∧ Rep C v.y ∧ Rep C v.z) (fuel : Nat) {f : List (List K)} (hm : m.tex = some (.vertex f))
    (hf : ∀ r ∈ f, ∀ x ∈ r, Rep C x) :
    (f.flatten.length < f.length * 3 → ∀ tex, loadMeshes C s tex fuel = .error .struct) ∧
    (f.length * 3 ≤ f.flatten.length →
      loadMeshes C s false (fuel + 1) = .ok (some [(savedName, ⟨m.verts, m.faces.map back, none⟩)]) ∧
      (m.faces.length % 2 = 1 → loadMeshes C s true (fuel + 1) = .error .value) ∧
      (f.length ≠ m.verts.length → loadMeshes C s true (fuel + 1) = .error .value) ∧
      (m.faces.length % 2 = 0 → f.length = m.verts.length → loadMeshes C s true (fuel + 1) =
        .ok (some [(savedName, ⟨m.verts, m.faces.map back, some (.vertex (chunks 3 f.length f.flatten))⟩)]))) ∧
    ((∀ r ∈ f, r.length = 3) → f.length * 3 = f.flatten.length ∧ chunks 3 f.length f.flatten = f) := by
  have hpl : (announced C m ≤ (payload C m).length) ↔ f.length * 3 ≤ f.flatten.length := by
    unfold announced payload
    simp only [hm, texPart, imgPart, List.length_append, posBytes_length, idxBytes_length, featBytes_length, List.length_nil]
    omega
  refine ⟨?_, ?_, ?_⟩
  · intro hlt tex
    unfold loadMeshes
    rw [openFile_save h hj, if_neg (by rw [hpl]; omega)]
  · intro hle
    have hp := hpl.2 hle
    have ht := texture_vertex C m hm hp hf (m.faces.map back)
    refine ⟨?_, ?_, ?_, ?_⟩
    · rw [loadMeshes_save h hj hr false fuel hp]; rfl
    · intro ho
      rw [loadMeshes_save h hj hr true fuel hp, if_pos rfl, ht, if_neg (by omega)]
    · intro ho
      rw [loadMeshes_save h hj hr true fuel hp, if_pos rfl, ht]
      split_ifs
      · have : texOk m.verts.length (some (Tex.vertex (chunks 3 f.length f.flatten))) = false := by
          simp [texOk, chunks_length, ho]
        simp only [this]
        rfl
      · rfl
    · intro h2 hV
      rw [loadMeshes_save h hj hr true fuel hp, if_pos rfl, ht, if_pos h2]
      have : texOk m.verts.length (some (Tex.vertex (chunks 3 f.length f.flatten))) = true := by
        simp [texOk, chunks_length, hV]
      simp only [this]
      rfl
  · intro h3
    refine ⟨(flatten_length h3).symm, ?_⟩
    have := chunks_flatten h3 []
    rwa [List.append_nil] at this

/-- **Round trip with texture coordinates.** -/
theorem glb_uv {C : Codec K} {m : Mesh K} {s : Str} {m' : Mesh K} (h : save C m = .ok (s, m'))
    (hj : C.loads (C.dumps (docOf C m)) = .ok (docOf C m))
    (hr : ∀ v ∈ m.verts, Rep C v.x ∧ Rep C v.y ∧ Rep C v.z) (fuel : Nat) {im : Img K} {fu : List (V3 Int)} {u : List (K × K)}
    (hm : m.tex = some (.uv im fu u)) (hu : ∀ r ∈ u, Rep C r.1 ∧ Rep C (1 - r.2)) (hpng : PngOk C im) :
    loadMeshes C s true (fuel + 1) = (if m.faces.length % 2 = 0 then
      .ok (some [(savedName, ⟨m.verts, m.faces.map back,
        some (.uv (im.map (·.map fun px => (px.take 3).map backColour)) (m.faces.map back) u)⟩)])
      else .error .value) ∧
    m' = { m with tex := some (.uv im fu (u.map fun r => (r.1, 1 - r.2))) } := by
  have hp : announced C m ≤ (payload C m).length := by
    unfold announced payload
    simp only [hm, texPart, List.length_append, posBytes_length, idxBytes_length, uvBytes_length]
    omega
  constructor
  · rw [loadMeshes_save h hj hr true fuel hp, if_pos rfl, texture_uv C m hm hu hpng]
    split_ifs <;> rfl
  · unfold save at h
    split_ifs at h
    simp only at h
    split_ifs at h
    simp only [Except.ok.injEq, Prod.mk.injEq] at h
    rw [← h.2]
    unfold afterSave
    rw [hm]

/-- Saving the same mesh a second time writes other texture coordinates. -/
theorem glb_twice {C : Codec K} {m : Mesh K} {s s2 : Str} {m' m'' : Mesh K} (h : save C m = .ok (s, m')) (h2 : save C m' = .ok (s2, m''))
    (hj : C.loads (C.dumps (docOf C m')) = .ok (docOf C m'))
    (hr : ∀ v ∈ m.verts, Rep C v.x ∧ Rep C v.y ∧ Rep C v.z) (fuel : Nat) {im : Img K} {fu : List (V3 Int)} {u : List (K × K)}
    (hm : m.tex = some (.uv im fu u)) (hu : ∀ r ∈ u, Rep C r.1 ∧ Rep C r.2) (hpng : PngOk C im)
    (hev : m.faces.length % 2 = 0) :
    loadMeshes C s2 true (fuel + 1) = .ok (some [(savedName, ⟨m.verts, m.faces.map back,
        some (.uv (im.map (·.map fun px => (px.take 3).map backColour)) (m.faces.map back) (u.map fun r => (r.1, 1 - r.2)))⟩)]) ∧
    m'' = m := by
  have hm' : m' = { m with tex := some (.uv im fu (u.map fun r => (r.1, 1 - r.2))) } := by
    unfold save at h
    split_ifs at h
    simp only at h
    split_ifs at h
    simp only [Except.ok.injEq, Prod.mk.injEq] at h
    rw [← h.2]
    unfold afterSave
    rw [hm]
  subst hm'
  have := glb_uv h2 hj hr fuel rfl (by
    intro r hr'
    obtain ⟨q, hq, rfl⟩ := List.mem_map.1 hr'
    simpa using hu q hq) hpng
  rw [if_pos hev] at this
  refine ⟨this.1, ?_⟩
  rw [this.2]
  obtain ⟨v, f, t⟩ := m
  simp only at hm
  subst hm
  simp [Function.comp_def]

/-- Colours between 0 and 1 are rounded down to a multiple of 1/255, and then stay. -/
theorem backColour_spec {x : K} (h0 : 0 ≤ x) (h1 : x ≤ 1) :
    backColour x ≤ x ∧ x < backColour x + 1 / 255 ∧ (∃ k : Nat, k ≤ 255 ∧ backColour x = k / 255) ∧
    backColour (backColour x) = backColour x := by
  have key : ∀ y : K, 0 ≤ y → y ≤ 1 → ((quant y : Nat) : K) = (⌊y * 255⌋ : Int) ∧ quant y ≤ 255 := by
    intro y hy0 hy1
    have ha : 0 ≤ ⌊y * 255⌋ := Int.floor_nonneg.2 (by linarith)
    have hb : ⌊y * 255⌋ ≤ 255 := by
      have : (⌊y * 255⌋ : K) ≤ 255 := (Int.floor_le _).trans (by linarith)
      exact_mod_cast this
    unfold quant
    rw [Int.emod_eq_of_lt ha (by omega)]
    refine ⟨?_, by omega⟩
    have : ((⌊y * 255⌋.toNat : Nat) : Int) = ⌊y * 255⌋ := Int.toNat_of_nonneg ha
    exact_mod_cast this
  obtain ⟨k1, k2⟩ := key x h0 h1
  have f1 := Int.floor_le (x * 255)
  have f2 := Int.lt_floor_add_one (x * 255)
  refine ⟨?_, ?_, ⟨quant x, k2, rfl⟩, ?_⟩
  · unfold backColour
    rw [k1, div_le_iff₀ (by norm_num)]
    exact f1
  · unfold backColour
    rw [k1, ← add_div, lt_div_iff₀ (by norm_num)]
    exact f2
  · have hq : backColour x * 255 = (quant x : K) := by unfold backColour; field_simp
    have : quant (backColour x) = quant x := by
      conv_lhs => unfold quant
      rw [hq, Int.floor_natCast]
      omega
    show ((quant (backColour x) : Nat) : K) / 255 = _
    rw [this]
    rfl

/-- Two attributes that share a buffer, interleaved up to its end: the second one cannot be read. -/
theorem interleaved_fails {bin : Str} {a : Accessor} {v : BufferView} {t : Ty} (hn : bin.length = a.count * v.byteStride)
    (hc : 0 < a.count) (h0 : 0 < a.byteOffset + v.byteOffset) (hs : a.byteOffset + v.byteOffset < v.byteStride) :
    viewData bin a v t = .error .value := by
  have hsp := viewData_spec bin a v t
  cases hv : viewData bin a v t with
  | error e => rw [hsp.2.1 e hv]
  | ok r =>
    exfalso
    obtain ⟨-, -, hor⟩ := hsp.1.1 ⟨r, hv⟩
    have hst : strideOf t a v = v.byteStride := by unfold strideOf; rw [if_neg (by omega)]
    rw [hst, hn] at hor
    rcases hor with h | h
    · omega
    · obtain ⟨c, hcc⟩ : ∃ c, a.count = c + 1 := ⟨a.count - 1, by omega⟩
      rw [hcc, show (c + 1) * v.byteStride - (a.byteOffset + v.byteOffset)
        = (v.byteStride - (a.byteOffset + v.byteOffset)) + c * v.byteStride by
          rw [Nat.add_mul, Nat.one_mul]; omega, Nat.add_mul_mod_self_right, Nat.mod_eq_of_lt (by omega)] at h
      omega

end P3D.Gltf
