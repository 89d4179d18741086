/-
`marching_cubes` on the CPU (C++) and the reference implementation `marching_cubes_naive` (Python):
cell loop, interpolation, removal of degenerate triangles, numbering of the vertices through hash maps.
-/
import Verif.MarchingSoup
import Verif.Vec3
import Mathlib.Algebra.Order.Field.Basic
import Mathlib.Algebra.Order.AbsoluteValue.Basic
import Mathlib.Tactic.FieldSimp
import Mathlib.Tactic.Positivity
import Mathlib.Tactic.NormNum
import Mathlib.Data.Rat.Cast.Order

set_option linter.unusedSectionVars false

namespace P3D.Marching

open P3D.Closed

variable {K : Type} [Field K] [LinearOrder K] [IsStrictOrderedRing K]

/-! ### Model -/

/-- `EPS` (marching_cubes_utils.h:18, marching_cubes.py:18). -/
def eps : K := 1 / 100000

/-- The position of a grid point. -/
def pos (p : P) : V3 K := ⟨p.1, p.2.1, p.2.2⟩

/-- Is the value at a grid point less than the iso level (marching_cubes_utils.h:80)? -/
def below (val : P → K) (iso : K) (p : P) : Bool := decide (val p < iso)

/-- `VertexInterp` on the edge from `k.1` to `k.2` (marching_cubes_utils.h:97-119, marching_cubes.cu:53-73,
marching_cubes.py:109-132; the Python formula `x1 + mu (x2 - x1)` is the same number). -/
def interp (val : P → K) (iso : K) (k : Key) : V3 K :=
  if |iso - val k.1| < eps then pos k.1
  else if |iso - val k.2| < eps then pos k.2
  else if |val k.1 - val k.2| < eps then pos k.1
  else
    let ratio := (iso - val k.1) / (val k.2 - val k.1)
    (1 - ratio) • pos k.1 + ratio • pos k.2

/-- `Vertex::operator!=` (marching_cubes_utils.h:40-44). -/
def differ (a b : V3 K) : Bool := decide (|a.x - b.x| ≥ eps) || decide (|a.y - b.y| ≥ eps) || decide (|a.z - b.z| ≥ eps)

/-- The test for a proper triangle in C++ (marching_cubes_cpu.cpp:75-76). -/
def properCpu (a b c : V3 K) : Bool := differ a b && differ b c && differ c a

/-- The same in Python, where lists of coordinates are compared exactly (marching_cubes.py:202-205). -/
def properPy (a b c : V3 K) : Bool :=
  let ne := fun (a b : V3 K) => !(decide (a.x = b.x) && decide (a.y = b.y) && decide (a.z = b.z))
  ne a b && ne b c && ne c a

/-- Conversion of a natural number to `float` (24 bits, ties to even). -/
def f32 (n : Nat) : Nat :=
  if n < 2 ^ 24 then n else
    let u := 2 ^ (Nat.log2 n - 23)
    let q := n / u
    if 2 * (n % u) < u ∨ (2 * (n % u) = u ∧ q % 2 = 0) then q * u else (q + 1) * u

/-- The vertex id in `HashVpair` (marching_cubes_utils.h:136-137): the corner coordinates are floats, so the sum
`x + y * W + z * W * H` is computed in `float`. -/
def vertIdF (W H : Nat) (p : P) : Nat := f32 (f32 (p.1 + f32 (p.2.1 * W)) + f32 (f32 (p.2.2 * W) * H))

/-- The vertex id in integers (marching_cubes.py:85-86, `localToGlobal` marching_cubes.cu:122-127). -/
def vertId (W H : Nat) (p : P) : Nat := p.1 + p.2.1 * W + p.2.2 * W * H

/-- `HashVpair` (marching_cubes_utils.h:133-139). -/
def hashF (W H D : Nat) (k : Key) : Nat := vertIdF W H k.1 * (W + W * H + W * H * D) + vertIdF W H k.2

/-- `hashVpair` (marching_cubes.cu:141-143). -/
def hash (W H D : Nat) (k : Key) : Nat := vertId W H k.1 * (W + W * H + W * H * D) + vertId W H k.2

/-- `uniq_edge_id`, `verts`, `faces` (marching_cubes_cpu.cpp:40-45).  `edge_id_to_v` is always read right after it is
written and is left out. -/
structure St (κ K : Type) where
  uniq : List (κ × Nat)
  verts : List (V3 K)
  faces : List Nat

variable {κ : Type} [DecidableEq κ]

/-- Lookup in a hash map or dictionary. -/
def _root_.List.look {α : Type} [DecidableEq α] (d : List (α × Nat)) (k : α) : Option Nat := d.lookup k

/-- Position in a list. -/
def _root_.List.idx {α : Type} [DecidableEq α] (l : List α) (k : α) : Nat := l.idxOf k

theorem look_nil {α : Type} [DecidableEq α] (k : α) : ([] : List (α × Nat)).look k = none := rfl

theorem look_cons {α : Type} [DecidableEq α] (q k : α) (v : Nat) (d : List (α × Nat)) :
    ((q, v) :: d).look k = if k = q then some v else d.look k := by
  unfold List.look
  rw [List.lookup_cons]
  by_cases h : k = q
  · subst h; simp
  · have hb : (k == q) = false := by simpa using h
    rw [hb, if_neg h]

/-- One vertex of a triangle (marching_cubes_cpu.cpp:78-84). -/
def emitV (s : St κ K) (x : κ × V3 K) : St κ K :=
  match s.uniq.look x.1 with
  | some i => { s with faces := s.faces ++ [i] }
  | none => ⟨(x.1, s.verts.length) :: s.uniq, s.verts ++ [x.2], s.faces ++ [s.verts.length]⟩

/-- The loop over the cut edges of a cell (marching_cubes_cpu.cpp:64-89): `tri` and `ps` collect ids and positions and are
cleared only when a triangle is stored. -/
def cellLoop (proper : V3 K → V3 K → V3 K → Bool) (key : Nat → κ) (pt : Nat → V3 K) :
    Nat → List κ → List (V3 K) → St κ K → List Nat → Option (St κ K)
  | _, _, _, s, [] => some s
  | j, tri, ps, s, e :: es =>
    if (j + 1) % 3 = 0 then
      match tri ++ [key e], ps ++ [pt e] with
      | t0 :: t1 :: t2 :: _, p0 :: p1 :: p2 :: _ =>
        if proper p0 p1 p2 then
          cellLoop proper key pt (j + 1) [] [] (emitV (emitV (emitV s (t0, p0)) (t1, p1)) (t2, p2)) es
        else cellLoop proper key pt (j + 1) (tri ++ [key e]) (ps ++ [pt e]) s es
      | _, _ => none
    else cellLoop proper key pt (j + 1) (tri ++ [key e]) (ps ++ [pt e]) s es

/-- The loop over the cells (marching_cubes_cpu.cpp:47-92). -/
def run (proper : V3 K → V3 K → V3 K → Bool) (key : Key → κ) (val : P → K) (iso : K) (W H D : Nat) : Option (St κ K) :=
  (cells W H D).foldlM (fun s c =>
    if row (cubeIndex (below val iso) c) = [] then some s
    else cellLoop proper (fun e => key (cellEdge c e)) (fun e => interp val iso (cellEdge c e)) 0 [] [] s
      (row (cubeIndex (below val iso) c))) ⟨[], [], []⟩

/-- `MarchingCubesCpu`: vertices and faces (marching_cubes_cpu.cpp:29-117). -/
def marchingCubesCpu (val : P → K) (iso : K) (W H D : Nat) : Option (List (V3 K) × List (Nat × Nat × Nat)) :=
  (run properCpu (hashF W H D) val iso W H D).map fun s => (s.verts, triples s.faces)

/-! The Python loop numbers the pairs of vertex ids first (marching_cubes.py:187-214). -/

/-- `dict.setdefault(k, len(dict))`. -/
def setdefault {α : Type} [DecidableEq α] (d : List (α × Nat)) (k : α) : List (α × Nat) × Nat :=
  match d.look k with
  | some i => (d, i)
  | none => ((k, d.length) :: d, d.length)

/-- The loop over the cut edges of a cell in Python (marching_cubes.py:187-214). -/
def pyLoop {α : Type} [DecidableEq α] (proper : V3 K → V3 K → V3 K → Bool) (pair : Nat → α) (pt : Nat → V3 K) :
    Nat → List Nat → List (V3 K) → List (α × Nat) → St Nat K → List Nat → Option (List (α × Nat) × St Nat K)
  | _, _, _, d, s, [] => some (d, s)
  | j, tri, ps, d, s, e :: es =>
    let q := setdefault d (pair e)
    if (j + 1) % 3 = 0 then
      match tri ++ [q.2], ps ++ [pt e] with
      | t0 :: t1 :: t2 :: _, p0 :: p1 :: p2 :: _ =>
        if proper p0 p1 p2 then
          pyLoop proper pair pt (j + 1) [] [] q.1 (emitV (emitV (emitV s (t0, p0)) (t1, p1)) (t2, p2)) es
        else pyLoop proper pair pt (j + 1) (tri ++ [q.2]) (ps ++ [pt e]) q.1 s es
      | _, _ => none
    else pyLoop proper pair pt (j + 1) (tri ++ [q.2]) (ps ++ [pt e]) q.1 s es

/-- The pair of vertex ids of an edge (`get_vpair_from_edge`, marching_cubes.py:72-87). -/
def vpair (W H : Nat) (k : Key) : Nat × Nat := (vertId W H k.1, vertId W H k.2)

/-- `marching_cubes_naive` for one volume, before the change of coordinates (marching_cubes.py:164-214). -/
def marchingCubesPy (val : P → K) (iso : K) (W H D : Nat) : Option (List (V3 K) × List (Nat × Nat × Nat)) :=
  ((cells W H D).foldlM (fun (s : List ((Nat × Nat) × Nat) × St Nat K) c =>
    if row (cubeIndex (below val iso) c) = [] then some s
    else pyLoop properPy (fun e => vpair W H (cellEdge c e)) (fun e => interp val iso (cellEdge c e)) 0 [] [] s.1 s.2
      (row (cubeIndex (below val iso) c))) ([], ⟨[], [], []⟩)).map fun s => (s.2.verts, triples s.2.faces)

/-! ### Specification: the triangles that are kept -/

/-- A triangle of grid edges is proper if its interpolated corners are. -/
def properTri (proper : V3 K → V3 K → V3 K → Bool) (val : P → K) (iso : K) (t : Key × Key × Key) : Bool :=
  proper (interp val iso t.1) (interp val iso t.2.1) (interp val iso t.2.2)

/-- In each cell the triangles before the first degenerate one. -/
def kept (proper : V3 K → V3 K → V3 K → Bool) (val : P → K) (iso : K) (W H D : Nat) : List (Key × Key × Key) :=
  (cells W H D).flatMap fun c => (cellTris (below val iso) c).takeWhile (properTri proper val iso)

/-! ### The cell loop -/

/-- Once a degenerate triangle is pending nothing more is stored. -/
theorem cellLoop_stuck (proper : V3 K → V3 K → V3 K → Bool) (key : Nat → κ) (pt : Nat → V3 K) (p0 p1 p2 : V3 K)
    (hp : proper p0 p1 p2 = false) (s : St κ K) : ∀ (es : List Nat) (j : Nat) (t0 t1 t2 : κ) (ts : List κ) (ps : List (V3 K)),
    cellLoop proper key pt j (t0 :: t1 :: t2 :: ts) (p0 :: p1 :: p2 :: ps) s es = some s
  | [], _, _, _, _, _, _ => rfl
  | e :: es, j, t0, t1, t2, ts, ps => by
    rw [cellLoop]
    split_ifs with h
    · simp only [List.cons_append]
      rw [hp]
      exact cellLoop_stuck proper key pt p0 p1 p2 hp s es _ _ _ _ _ _
    · exact cellLoop_stuck proper key pt p0 p1 p2 hp s es _ _ _ _ _ _

/-- The ids and positions of a triangle of cut edges. -/
def flat3 (key : Nat → κ) (pt : Nat → V3 K) (t : Nat × Nat × Nat) : List (κ × V3 K) :=
  [(key t.1, pt t.1), (key t.2.1, pt t.2.1), (key t.2.2, pt t.2.2)]

theorem cellLoop_spec (proper : V3 K → V3 K → V3 K → Bool) (key : Nat → κ) (pt : Nat → V3 K) : ∀ (es : List Nat) (j : Nat)
    (s : St κ K), es.length % 3 = 0 → j % 3 = 0 → cellLoop proper key pt j [] [] s es
      = some ((((triples es).takeWhile fun t => proper (pt t.1) (pt t.2.1) (pt t.2.2)).flatMap (flat3 key pt)).foldl emitV s)
  | [], _, _, _, _ => rfl
  | [_], _, _, h, _ => by simp at h
  | [_, _], _, _, h, _ => by simp at h
  | a :: b :: c :: es, j, s, h, hj => by
    rw [cellLoop, if_neg (by omega), cellLoop, if_neg (by omega), cellLoop, if_pos (by omega)]
    simp only [List.nil_append, List.cons_append, triples, List.takeWhile_cons]
    split_ifs with hp
    · rw [cellLoop_spec proper key pt es _ _ (by simp only [List.length_cons] at h; omega) (by omega)]
      simp only [List.flatMap_cons, flat3, List.cons_append, List.nil_append, List.foldl_cons]
    · rw [cellLoop_stuck proper key pt _ _ _ (by simpa using hp)]
      rfl

theorem pyLoop_ext {α : Type} [DecidableEq α] (proper : V3 K → V3 K → V3 K → Bool) (pair : Nat → α) (pt : Nat → V3 K) :
    ∀ (es : List Nat) (j : Nat) (tri : List Nat) (ps : List (V3 K)) (d d' : List (α × Nat)) (s s' : St Nat K),
    pyLoop proper pair pt j tri ps d s es = some (d', s') → ∀ k i, d.look k = some i → d'.look k = some i := by
  intro es
  have hsd : ∀ (d : List (α × Nat)) (q k : α) (i : Nat), d.look k = some i → (setdefault d q).1.look k = some i := by
    intro d q k i h
    unfold setdefault
    split
    · exact h
    · rename_i hn
      have : ¬ k = q := by rintro rfl; rw [h] at hn; cases hn
      rw [look_cons, if_neg this]; exact h
  induction es with
  | nil =>
    intro j tri ps d d' s s' h k i hk
    simp only [pyLoop, Option.some.injEq, Prod.mk.injEq] at h
    rw [← h.1]; exact hk
  | cons e es ih =>
    intro j tri ps d d' s s' h k i hk
    rw [pyLoop] at h
    split_ifs at h with h3
    · split at h
      · split_ifs at h
        · exact ih _ _ _ _ _ _ _ h k i (hsd _ _ _ _ hk)
        · exact ih _ _ _ _ _ _ _ h k i (hsd _ _ _ _ hk)
      · cases h
    · exact ih _ _ _ _ _ _ _ h k i (hsd _ _ _ _ hk)

theorem lookup_setdefault {α : Type} [DecidableEq α] (d : List (α × Nat)) (k : α) :
    (setdefault d k).1.look k = some (setdefault d k).2 := by
  unfold setdefault
  split
  · assumption
  · simp [look_cons]

/-- The Python loop is the C++ loop with the final number of each pair as its key. -/
theorem pyLoop_eq {α : Type} [DecidableEq α] (proper : V3 K → V3 K → V3 K → Bool) (pair : Nat → α) (pt : Nat → V3 K)
    (g : α → Nat) : ∀ (es : List Nat) (j : Nat) (tri : List Nat) (ps : List (V3 K)) (d d' : List (α × Nat)) (s s' : St Nat K),
    pyLoop proper pair pt j tri ps d s es = some (d', s') → (∀ k i, d'.look k = some i → g k = i) →
    cellLoop proper (fun e => g (pair e)) pt j tri ps s es = some s' := by
  intro es
  induction es with
  | nil =>
    intro j tri ps d d' s s' h _
    simp only [pyLoop, Option.some.injEq, Prod.mk.injEq] at h
    simp [cellLoop, h.2]
  | cons e es ih =>
    intro j tri ps d d' s s' h hg
    rw [pyLoop] at h
    rw [cellLoop]
    have key : ∀ {j tri ps s}, pyLoop proper pair pt j tri ps (setdefault d (pair e)).1 s es = some (d', s') →
        g (pair e) = (setdefault d (pair e)).2 := fun h' =>
      hg _ _ (pyLoop_ext proper pair pt es _ _ _ _ _ _ _ h' _ _ (lookup_setdefault d (pair e)))
    split_ifs at h ⊢ with h3
    · split at h
      · rename_i t0 t1 t2 ts p0 p1 p2 pss e1 e2
        split_ifs at h with hp
        · rw [key h, e1, e2]; simp only; rw [if_pos hp]
          exact ih _ _ _ _ _ _ _ h hg
        · rw [key h, e1, e2]; simp only; rw [if_neg hp]
          have := ih _ _ _ _ _ _ _ h hg
          rw [e1, e2] at this; exact this
      · cases h
    · rw [key h]; exact ih _ _ _ _ _ _ _ h hg

/-! ### Numbering the vertices -/

theorem idxOf_append_of_mem {α : Type} [DecidableEq α] {l l' : List α} {a : α} (h : a ∈ l) :
    (l ++ l').idx a = l.idx a := by
  unfold List.idx; exact List.idxOf_append_of_mem h

/-- Storing vertices under injective keys numbers them in the order of their first use. -/
theorem intern_spec {α : Type} [DecidableEq α] (g : α → κ) (f : α → V3 K) (S : α → Prop)
    (hinj : ∀ a b, S a → S b → g a = g b → a = b) : ∀ (L : List α) (_ : ∀ a ∈ L, S a) (s : St κ K) (ks : List α),
    ks.Nodup → (∀ k ∈ ks, S k) → s.verts = ks.map f →
    (∀ k, S k → s.uniq.look (g k) = if k ∈ ks then some (ks.idx k) else none) →
    ∃ ks' : List α, (ks ++ ks').Nodup ∧ (∀ k, k ∈ ks ++ ks' ↔ k ∈ ks ∨ k ∈ L) ∧
      ((L.map fun a => (g a, f a)).foldl emitV s).verts = (ks ++ ks').map f ∧
      ((L.map fun a => (g a, f a)).foldl emitV s).faces = s.faces ++ L.map (ks ++ ks').idx ∧
      (∀ k, S k → ((L.map fun a => (g a, f a)).foldl emitV s).uniq.look (g k)
        = if k ∈ ks ++ ks' then some ((ks ++ ks').idx k) else none)
  | [], _, s, ks, h1, _, h3, h4 => ⟨[], by simpa using h1, by simp, by simpa using h3, by simp, by simpa using h4⟩
  | a :: L, hL, s, ks, h1, h2, h3, h4 => by
    have ha : S a := hL a (by simp)
    have hL' : ∀ b ∈ L, S b := fun b hb => hL b (by simp [hb])
    rw [List.map_cons, List.foldl_cons]
    by_cases hm : a ∈ ks
    · have he : emitV s (g a, f a) = { s with faces := s.faces ++ [ks.idx a] } := by
        unfold emitV; simp only [h4 a ha, if_pos hm]
      rw [he]
      obtain ⟨ks', i1, i2, i3, i4, i5⟩ := intern_spec g f S hinj L hL' { s with faces := s.faces ++ [ks.idx a] } ks h1 h2 h3 h4
      refine ⟨ks', i1, ?_, i3, ?_, i5⟩
      · intro k; rw [i2]; constructor
        · rintro (h | h) <;> simp [h]
        · rintro (h | h)
          · exact Or.inl h
          · rcases List.mem_cons.mp h with rfl | h
            · exact Or.inl hm
            · exact Or.inr h
      · rw [i4, List.map_cons, idxOf_append_of_mem hm]; simp
    · have he : emitV s (g a, f a) = ⟨(g a, s.verts.length) :: s.uniq, s.verts ++ [f a], s.faces ++ [s.verts.length]⟩ := by
        unfold emitV; simp only [h4 a ha, if_neg hm]
      rw [he]
      have hn : (ks ++ [a]).Nodup := by
        rw [List.nodup_append]
        exact ⟨h1, by simp, by rintro x hx y hy rfl; simp at hy; exact hm (hy ▸ hx)⟩
      have hlen : s.verts.length = ks.length := by rw [h3, List.length_map]
      have hidx : (ks ++ [a]).idx a = ks.length := by
        unfold List.idx; rw [List.idxOf_append_of_notMem hm]; simp
      obtain ⟨ks', i1, i2, i3, i4, i5⟩ := intern_spec g f S hinj L hL'
        ⟨(g a, s.verts.length) :: s.uniq, s.verts ++ [f a], s.faces ++ [s.verts.length]⟩ (ks ++ [a]) hn
        (by intro k hk; rcases List.mem_append.mp hk with h | h
            · exact h2 k h
            · simp at h; rw [h]; exact ha)
        (by simp [h3])
        (by
          intro k hk
          simp only
          rw [look_cons]
          by_cases hka : k = a
          · subst hka
            rw [if_pos rfl, if_pos (by simp), hidx, hlen]
          · rw [if_neg (fun e => hka (hinj k a hk ha e)), h4 k hk]
            by_cases hkk : k ∈ ks
            · rw [if_pos hkk, if_pos (by simp [hkk]), idxOf_append_of_mem hkk]
            · rw [if_neg hkk, if_neg (by simp [hkk, hka])])
      rw [List.append_assoc] at i1 i2 i3 i4 i5
      refine ⟨[a] ++ ks', i1, ?_, i3, ?_, i5⟩
      · intro k; rw [i2]; simp only [List.mem_append, List.mem_cons, List.not_mem_nil, or_false]; tauto
      · rw [i4, List.map_cons]
        have : (ks ++ ([a] ++ ks')).idx a = s.verts.length := by
          rw [← List.append_assoc, idxOf_append_of_mem (by simp), hidx, hlen]
        rw [this]; simp

theorem triples_flatMap {α β : Type} (f : α → β) : ∀ ts : List (α × α × α),
    triples ((ts.flatMap fun t => [t.1, t.2.1, t.2.2]).map f) = ts.map fun t => (f t.1, f t.2.1, f t.2.2)
  | [] => rfl
  | t :: ts => by
    simp only [List.flatMap_cons, List.cons_append, List.nil_append, List.map_cons, triples, triples_flatMap f ts]

theorem run_eq (proper : V3 K → V3 K → V3 K → Bool) (key : Key → κ) (val : P → K) (iso : K) (W H D : Nat) :
    run proper key val iso W H D = some ((((kept proper val iso W H D).flatMap fun t => [t.1, t.2.1, t.2.2]).map
      fun k => (key k, interp val iso k)).foldl emitV ⟨[], [], []⟩) := by
  unfold run kept
  generalize (⟨[], [], []⟩ : St κ K) = s
  induction cells W H D generalizing s with
  | nil => rfl
  | cons c cs ih =>
    have R := (row_facts (cubeIndex_lt (below val iso) c)).1
    have step : (if row (cubeIndex (below val iso) c) = [] then some s
        else cellLoop proper (fun e => key (cellEdge c e)) (fun e => interp val iso (cellEdge c e)) 0 [] [] s
          (row (cubeIndex (below val iso) c)))
        = some (((((cellTris (below val iso) c).takeWhile (properTri proper val iso)).flatMap
          fun t => [t.1, t.2.1, t.2.2]).map fun k => (key k, interp val iso k)).foldl emitV s) := by
      have h1 := cellLoop_spec proper (fun e => key (cellEdge c e)) (fun e => interp val iso (cellEdge c e))
        (row (cubeIndex (below val iso) c)) 0 s R rfl
      have h2 : ((((triples (row (cubeIndex (below val iso) c))).takeWhile fun t =>
          proper (interp val iso (cellEdge c t.1)) (interp val iso (cellEdge c t.2.1)) (interp val iso (cellEdge c t.2.2))).flatMap
          (flat3 (fun e => key (cellEdge c e)) (fun e => interp val iso (cellEdge c e)))))
          = (((cellTris (below val iso) c).takeWhile (properTri proper val iso)).flatMap
          fun t => [t.1, t.2.1, t.2.2]).map fun k => (key k, interp val iso k) := by
        rw [cellTris, triples_map, List.takeWhile_map, List.flatMap_map, List.map_flatMap]
        rfl
      rw [← h2, ← h1]
      split_ifs with h
      · rw [h]; rfl
      · rfl
    rw [List.foldlM_cons, step]
    simp only [Option.bind_eq_bind, Option.bind_some]
    rw [ih, List.flatMap_cons, List.flatMap_append, List.map_append, List.foldl_append]

/-- The numbered mesh of a list of triangles of grid edges: there is a list of the used grid edges without repetition, whose
interpolated points are the vertices, and the faces refer to positions in it. -/
def IsMeshOf (val : P → K) (iso : K) (ts : List (Key × Key × Key)) (m : List (V3 K) × List (Nat × Nat × Nat)) : Prop :=
  ∃ ks : List Key, ks.Nodup ∧ (∀ k, k ∈ ks ↔ IsVertex ts k) ∧ m.1 = ks.map (interp val iso) ∧
    m.2 = ts.map fun t => (ks.idx t.1, ks.idx t.2.1, ks.idx t.2.2)

theorem mem_flat {α : Type} {ts : List (α × α × α)} {k : α} :
    k ∈ (ts.flatMap fun t => [t.1, t.2.1, t.2.2]) ↔ IsVertex ts k := by
  simp only [List.mem_flatMap, List.mem_cons, List.not_mem_nil, or_false, IsVertex]

/-- A run whose keys distinguish the used grid edges produces the mesh of the kept triangles. -/
theorem run_mesh (proper : V3 K → V3 K → V3 K → Bool) (key : Key → κ) (val : P → K) (iso : K) (W H D : Nat)
    (hinj : ∀ a b, IsVertex (kept proper val iso W H D) a → IsVertex (kept proper val iso W H D) b → key a = key b → a = b) :
    ∃ s, run proper key val iso W H D = some s ∧ IsMeshOf val iso (kept proper val iso W H D) (s.verts, triples s.faces) := by
  refine ⟨_, run_eq proper key val iso W H D, ?_⟩
  obtain ⟨ks, h1, h2, h3, h4, _⟩ := intern_spec key (interp val iso) (IsVertex (kept proper val iso W H D)) hinj
    ((kept proper val iso W H D).flatMap fun t => [t.1, t.2.1, t.2.2]) (fun a ha => mem_flat.mp ha) ⟨[], [], []⟩ []
    (by simp) (by simp) rfl (by simp [look_nil])
  simp only [List.nil_append] at h1 h2 h3 h4
  refine ⟨ks, h1, fun k => ?_, h3, ?_⟩
  · rw [h2]; simp only [List.not_mem_nil, false_or]; exact mem_flat
  · show triples _ = _
    rw [h4]; exact triples_flatMap (fun a => ks.idx a) _

/-! ### Kept triangles and keys -/

theorem mem_takeWhile {α : Type} {p : α → Bool} : ∀ {l : List α} {a : α}, a ∈ l.takeWhile p → a ∈ l ∧ p a = true
  | b :: l, a, h => by
    rw [List.takeWhile_cons] at h
    split_ifs at h with hb
    · rcases List.mem_cons.mp h with rfl | h
      · exact ⟨by simp, hb⟩
      · exact ⟨by simp [(mem_takeWhile h).1], (mem_takeWhile h).2⟩
    · simp at h

theorem takeWhile_all {α : Type} {p : α → Bool} : ∀ {l : List α}, (∀ a ∈ l, p a = true) → l.takeWhile p = l
  | [], _ => rfl
  | b :: l, h => by
    rw [List.takeWhile_cons, if_pos (h b (by simp)), takeWhile_all fun a ha => h a (by simp [ha])]

theorem kept_subset (proper : V3 K → V3 K → V3 K → Bool) (val : P → K) (iso : K) (W H D : Nat) :
    ∀ t ∈ kept proper val iso W H D, t ∈ soup (below val iso) W H D ∧ properTri proper val iso t = true := by
  intro t ht
  simp only [kept, soup, List.mem_flatMap] at ht ⊢
  obtain ⟨c, hc, ht⟩ := ht
  exact ⟨⟨c, hc, (mem_takeWhile ht).1⟩, (mem_takeWhile ht).2⟩

/-- Without degenerate triangles everything is kept. -/
theorem kept_eq_soup {proper : V3 K → V3 K → V3 K → Bool} {val : P → K} {iso : K} {W H D : Nat}
    (h : ∀ t ∈ soup (below val iso) W H D, properTri proper val iso t = true) :
    kept proper val iso W H D = soup (below val iso) W H D := by
  unfold kept soup
  refine List.flatMap_congr fun c hc => ?_
  exact takeWhile_all fun t ht => h t (List.mem_flatMap.mpr ⟨c, hc, ht⟩)

/-- A degenerate triangle is not kept. -/
theorem kept_not_mem {proper : V3 K → V3 K → V3 K → Bool} {val : P → K} {iso : K} {W H D : Nat} {t : Key × Key × Key}
    (hp : properTri proper val iso t = false) : t ∉ kept proper val iso W H D :=
  fun hk => by rw [(kept_subset proper val iso W H D t hk).2] at hp; cases hp

theorem vertex_in_grid {below : P → Bool} {W H D : Nat} {k : Key} (h : IsVertex (soup below W H D) k) :
    (k.1.1 < W ∧ k.1.2.1 < H ∧ k.1.2.2 < D) ∧ (k.2.1 < W ∧ k.2.2.1 < H ∧ k.2.2.2 < D) ∧ below k.1 ≠ below k.2
      ∧ ∃ ax < 3, k.2 = padd k.1 (unit ax) := by
  rw [isVertex_soup_iff] at h
  obtain ⟨c, hc, e, he, rfl⟩ := h
  rw [(row_facts (cubeIndex_lt below c)).2.2.1] at he
  rw [cut_cubeIndex below c he.1] at he
  have hl := lo_hi_le e he.1
  obtain ⟨ax, hax, h⟩ := edge_axis e he.1
  rw [mem_cells] at hc
  refine ⟨?_, ?_, by simpa [cellEdge] using he.2, ax, hax, ?_⟩
  · simp only [cellEdge, padd]; omega
  · simp only [cellEdge, padd]; omega
  · simp only [cellEdge, h, padd, Prod.mk.injEq]
    refine ⟨?_, ?_, ?_⟩ <;> omega

/-- All reads of the volume are inside it. -/
theorem reads_in_grid {W H D : Nat} {c : P} (hc : c ∈ cells W H D) {v : Nat} (hv : v < 8) :
    (padd c (corner v)).1 < W ∧ (padd c (corner v)).2.1 < H ∧ (padd c (corner v)).2.2 < D := by
  rw [mem_cells] at hc
  have : (corner v).1 ≤ 1 ∧ (corner v).2.1 ≤ 1 ∧ (corner v).2.2 ≤ 1 := by revert v; decide
  simp only [padd]; omega

theorem vertId_lt {W H D : Nat} {p : P} (h : p.1 < W ∧ p.2.1 < H ∧ p.2.2 < D) : vertId W H p < W * H * D := by
  obtain ⟨x, y, z⟩ := p
  simp only [vertId] at h ⊢
  have h1 : x + y * W < W * H := by nlinarith [Nat.mul_le_mul_right W (show y + 1 ≤ H by omega)]
  have h2 : (z + 1) * (W * H) ≤ D * (W * H) := Nat.mul_le_mul_right _ (by omega)
  nlinarith

theorem vertId_inj {W H D : Nat} {p q : P} (hp : p.1 < W ∧ p.2.1 < H ∧ p.2.2 < D) (hq : q.1 < W ∧ q.2.1 < H ∧ q.2.2 < D)
    (h : vertId W H p = vertId W H q) : p = q := by
  obtain ⟨x, y, z⟩ := p
  obtain ⟨x', y', z'⟩ := q
  simp only [vertId] at h hp hq
  have e : ∀ x y z : Nat, x + y * W + z * W * H = x + W * (y + H * z) := fun x y z => by ring
  rw [e, e] at h
  have hx : x = x' := by
    have := congrArg (· % W) h
    simpa [Nat.add_mul_mod_self_left, Nat.mod_eq_of_lt hp.1, Nat.mod_eq_of_lt hq.1] using this
  have hr : y + H * z = y' + H * z' := by
    have := congrArg (· / W) h
    simpa [Nat.add_mul_div_left _ _ (show 0 < W by omega), Nat.div_eq_of_lt hp.1, Nat.div_eq_of_lt hq.1] using this
  have hy : y = y' := by
    have := congrArg (· % H) hr
    simpa [Nat.add_mul_mod_self_left, Nat.mod_eq_of_lt hp.2.1, Nat.mod_eq_of_lt hq.2.1] using this
  have hz : z = z' := by
    have := congrArg (· / H) hr
    simpa [Nat.add_mul_div_left _ _ (show 0 < H by omega), Nat.div_eq_of_lt hp.2.1, Nat.div_eq_of_lt hq.2.1] using this
  rw [hx, hy, hz]

/-- The integer hash distinguishes the edges of the grid. -/
theorem hash_inj {W H D : Nat} {a b : Key} (ha : (a.1.1 < W ∧ a.1.2.1 < H ∧ a.1.2.2 < D) ∧ (a.2.1 < W ∧ a.2.2.1 < H ∧ a.2.2.2 < D))
    (hb : (b.1.1 < W ∧ b.1.2.1 < H ∧ b.1.2.2 < D) ∧ (b.2.1 < W ∧ b.2.2.1 < H ∧ b.2.2.2 < D))
    (h : hash W H D a = hash W H D b) : a = b := by
  unfold hash at h
  have l1 := vertId_lt ha.2
  have l2 := vertId_lt hb.2
  generalize hM : W + W * H + W * H * D = M at h
  have hM' : W * H * D ≤ M := by omega
  have h2 : vertId W H a.2 = vertId W H b.2 := by
    have := congrArg (· % M) h
    simpa [Nat.mul_comm _ M, Nat.mul_add_mod, Nat.mod_eq_of_lt (lt_of_lt_of_le l1 hM'), Nat.mod_eq_of_lt (lt_of_lt_of_le l2 hM')] using this
  have h1 : vertId W H a.1 = vertId W H b.1 := by
    rw [h2] at h
    exact Nat.eq_of_mul_eq_mul_right (by omega) (Nat.add_right_cancel h)
  exact Prod.ext (vertId_inj ha.1 hb.1 h1) (vertId_inj ha.2 hb.2 h2)

theorem f32_small {n : Nat} (h : n < 2 ^ 24) : f32 n = n := if_pos h

/-- The floating point ids are exact as long as the volume has at most `2 ^ 24` points. -/
theorem vertIdF_eq {W H D : Nat} (hs : W * H * D ≤ 2 ^ 24) {p : P} (h : p.1 < W ∧ p.2.1 < H ∧ p.2.2 < D) :
    vertIdF W H p = vertId W H p := by
  have hl := vertId_lt h
  unfold vertIdF
  unfold vertId at hl ⊢
  have h3 : p.2.2 * W ≤ p.2.2 * W * H := Nat.le_mul_of_pos_right _ (by omega)
  rw [f32_small (n := p.2.1 * W) (by omega), f32_small (n := p.2.2 * W) (by omega), f32_small (n := p.2.2 * W * H) (by omega),
    f32_small (n := p.1 + p.2.1 * W) (by omega), f32_small (by omega)]

theorem hashF_eq {W H D : Nat} (hs : W * H * D ≤ 2 ^ 24) {a : Key}
    (ha : (a.1.1 < W ∧ a.1.2.1 < H ∧ a.1.2.2 < D) ∧ (a.2.1 < W ∧ a.2.2.1 < H ∧ a.2.2.2 < D)) :
    hashF W H D a = hash W H D a := by
  unfold hashF hash; rw [vertIdF_eq hs ha.1, vertIdF_eq hs ha.2]

/-- In a 256 × 256 × 257 volume two different grid edges already have the same id, so the C++ code merges the two vertices. -/
theorem hashF_collision : hashF 256 256 257 ((0, 0, 256), (0, 1, 256)) = hashF 256 256 257 ((1, 0, 256), (1, 1, 256)) := by
  decide +kernel

theorem isVertex_kept {proper : V3 K → V3 K → V3 K → Bool} {val : P → K} {iso : K} {W H D : Nat} {k : Key}
    (h : IsVertex (kept proper val iso W H D) k) : IsVertex (soup (below val iso) W H D) k := by
  obtain ⟨t, ht, h⟩ := h
  exact ⟨t, (kept_subset proper val iso W H D t ht).1, h⟩

/-- **C++**: for volumes of at most `2 ^ 24` points the result is the mesh of the kept triangles. -/
theorem cpu_spec (val : P → K) (iso : K) (W H D : Nat) (hs : W * H * D ≤ 2 ^ 24) :
    ∃ m, marchingCubesCpu val iso W H D = some m ∧ IsMeshOf val iso (kept properCpu val iso W H D) m := by
  obtain ⟨s, h1, h2⟩ := run_mesh properCpu (hashF W H D) val iso W H D (by
    intro a b ha hb h
    have ga := vertex_in_grid (isVertex_kept ha)
    have gb := vertex_in_grid (isVertex_kept hb)
    rw [hashF_eq hs ⟨ga.1, ga.2.1⟩, hashF_eq hs ⟨gb.1, gb.2.1⟩] at h
    exact hash_inj ⟨ga.1, ga.2.1⟩ ⟨gb.1, gb.2.1⟩ h)
  exact ⟨_, by rw [marchingCubesCpu, h1]; rfl, h2⟩

/-! ### The Python version -/

/-- Numbers in a dictionary filled by `setdefault` are distinct. -/
def DictOk {α : Type} [DecidableEq α] (d : List (α × Nat)) : Prop :=
  (∀ k i, d.look k = some i → i < d.length) ∧ ∀ k k' i, d.look k = some i → d.look k' = some i → k = k'

theorem setdefault_ok {α : Type} [DecidableEq α] {d : List (α × Nat)} (h : DictOk d) (q : α) : DictOk (setdefault d q).1 := by
  unfold setdefault
  split
  · exact h
  · rename_i hn
    have hl : ∀ k i, ((q, d.length) :: d).look k = some i → (k = q ∧ i = d.length) ∨ (k ≠ q ∧ d.look k = some i) := by
      intro k i hk
      rw [look_cons] at hk
      by_cases hkq : k = q
      · rw [if_pos hkq] at hk; exact Or.inl ⟨hkq, by simpa using hk.symm⟩
      · rw [if_neg hkq] at hk; exact Or.inr ⟨hkq, hk⟩
    constructor
    · intro k i hk
      rcases hl k i hk with ⟨_, rfl⟩ | ⟨_, hk⟩
      · simp
      · have := h.1 k i hk; simp; omega
    · intro k k' i hk hk'
      rcases hl k i hk with ⟨a, e⟩ | ⟨_, hk1⟩ <;> rcases hl k' i hk' with ⟨a', e'⟩ | ⟨_, hk1'⟩
      · rw [a, a']
      · have := h.1 _ _ hk1'; omega
      · have := h.1 _ _ hk1; omega
      · exact h.2 _ _ _ hk1 hk1'

theorem pyLoop_total {α : Type} [DecidableEq α] (proper : V3 K → V3 K → V3 K → Bool) (pair : Nat → α) (pt : Nat → V3 K) :
    ∀ (es : List Nat) (j : Nat) (tri : List Nat) (ps : List (V3 K)) (d : List (α × Nat)) (s : St Nat K),
    tri.length = ps.length → j % 3 ≤ tri.length → DictOk d → ∃ d' s', pyLoop proper pair pt j tri ps d s es = some (d', s')
      ∧ DictOk d' ∧ ∀ e ∈ es, ∃ i, d'.look (pair e) = some i := by
  intro es
  induction es with
  | nil => intro j tri ps d s _ _ hd; exact ⟨d, s, rfl, hd, by simp⟩
  | cons e es ih =>
    intro j tri ps d s hl hj hd
    have hd' := setdefault_ok hd (pair e)
    have fin : ∀ {j tri ps s}, (∃ d' s', pyLoop proper pair pt j tri ps (setdefault d (pair e)).1 s es = some (d', s')
        ∧ DictOk d' ∧ ∀ e ∈ es, ∃ i, d'.look (pair e) = some i) →
        ∃ d' s', pyLoop proper pair pt j tri ps (setdefault d (pair e)).1 s es = some (d', s')
        ∧ DictOk d' ∧ ∀ e' ∈ e :: es, ∃ i, d'.look (pair e') = some i := by
      rintro j tri ps s ⟨d', s', h1, h2, h3⟩
      refine ⟨d', s', h1, h2, ?_⟩
      intro e' he'
      rcases List.mem_cons.mp he' with rfl | he'
      · exact ⟨_, pyLoop_ext proper pair pt es _ _ _ _ _ _ _ h1 _ _ (lookup_setdefault d _)⟩
      · exact h3 e' he'
    rw [pyLoop]
    split_ifs with h3
    · have hlen : (tri ++ [(setdefault d (pair e)).2]).length ≥ 3 := by simp; omega
      have hlen' : (ps ++ [pt e]).length ≥ 3 := by simp; omega
      have heq : (tri ++ [(setdefault d (pair e)).2]).length = (ps ++ [pt e]).length := by simp [hl]
      split
      · rename_i t0 t1 t2 ts p0 p1 p2 pss e1 e2
        split_ifs with hp
        · exact fin (ih _ _ _ _ _ rfl (by simp; omega) hd')
        · exact fin (ih _ _ _ _ _ heq (by omega) hd')
      · rename_i hno
        exfalso
        revert hno
        generalize tri ++ [(setdefault d (pair e)).2] = A at hlen
        generalize ps ++ [pt e] = B at hlen'
        match A, hlen, B, hlen' with
        | a :: b :: c :: A, _, x :: y :: z :: B, _ => intro h; exact h _ _ _ _ _ _ _ _ rfl rfl
    · exact fin (ih _ _ _ _ _ (by simp [hl]) (by simp; omega) hd')

theorem py_run (val : P → K) (iso : K) (W H : Nat) : ∀ (cs : List P) (d : List ((Nat × Nat) × Nat)) (s : St Nat K), DictOk d →
    ∃ d' s', cs.foldlM (fun (s : List ((Nat × Nat) × Nat) × St Nat K) c =>
      if row (cubeIndex (below val iso) c) = [] then some s
      else pyLoop properPy (fun e => vpair W H (cellEdge c e)) (fun e => interp val iso (cellEdge c e)) 0 [] [] s.1 s.2
        (row (cubeIndex (below val iso) c))) (d, s) = some (d', s') ∧ DictOk d' ∧
      (∀ k i, d.look k = some i → d'.look k = some i) ∧
      (∀ c ∈ cs, ∀ e ∈ row (cubeIndex (below val iso) c), ∃ i, d'.look (vpair W H (cellEdge c e)) = some i) ∧
      ∀ g : Nat × Nat → Nat, (∀ k i, d'.look k = some i → g k = i) →
        cs.foldlM (fun s c => if row (cubeIndex (below val iso) c) = [] then some s
          else cellLoop properPy (fun e => g (vpair W H (cellEdge c e))) (fun e => interp val iso (cellEdge c e)) 0 [] [] s
            (row (cubeIndex (below val iso) c))) s = some s'
  | [], d, s, hd => ⟨d, s, rfl, hd, fun _ _ h => h, by simp, fun _ _ => rfl⟩
  | c :: cs, d, s, hd => by
    by_cases hr : row (cubeIndex (below val iso) c) = []
    · obtain ⟨d', s', h1, h2, h3, h4, h5⟩ := py_run val iso W H cs d s hd
      refine ⟨d', s', ?_, h2, h3, ?_, ?_⟩
      · rw [List.foldlM_cons, if_pos hr]; exact h1
      · intro c' hc' e he
        rcases List.mem_cons.mp hc' with rfl | hc'
        · rw [hr] at he; simp at he
        · exact h4 c' hc' e he
      · intro g hg
        rw [List.foldlM_cons, if_pos hr]; exact h5 g hg
    · obtain ⟨d1, s1, a1, a2, a3⟩ := pyLoop_total properPy (fun e => vpair W H (cellEdge c e))
        (fun e => interp val iso (cellEdge c e)) (row (cubeIndex (below val iso) c)) 0 [] [] d s rfl (by simp) hd
      obtain ⟨d', s', h1, h2, h3, h4, h5⟩ := py_run val iso W H cs d1 s1 a2
      refine ⟨d', s', ?_, h2, ?_, ?_, ?_⟩
      · rw [List.foldlM_cons, if_neg hr]
        simp only [a1, Option.bind_eq_bind, Option.bind_some]; exact h1
      · intro k i hk
        exact h3 k i (pyLoop_ext _ _ _ _ _ _ _ _ _ _ _ a1 k i hk)
      · intro c' hc' e he
        rcases List.mem_cons.mp hc' with rfl | hc'
        · obtain ⟨i, hi⟩ := a3 e he
          exact ⟨i, h3 _ _ hi⟩
        · exact h4 c' hc' e he
      · intro g hg
        rw [List.foldlM_cons, if_neg hr]
        rw [pyLoop_eq properPy _ _ g _ _ _ _ _ _ _ _ a1 (fun k i hk => hg k i (h3 k i hk))]
        simp only [Option.bind_eq_bind, Option.bind_some]; exact h5 g hg

/-- **Python**: for every volume the result is the mesh of the triangles kept with exact comparison. -/
theorem py_spec (val : P → K) (iso : K) (W H D : Nat) :
    ∃ m, marchingCubesPy val iso W H D = some m ∧ IsMeshOf val iso (kept properPy val iso W H D) m := by
  obtain ⟨d, s, h1, h2, _, h4, h5⟩ := py_run val iso W H (cells W H D) [] ⟨[], [], []⟩ ⟨by simp [look_nil], by simp [look_nil]⟩
  have h6 := h5 (fun k => (d.look k).getD 0) (fun k i hk => by simp [hk])
  obtain ⟨s', r1, r2⟩ := run_mesh properPy (fun k => ((d.look (vpair W H k)).getD 0)) val iso W H D (by
    intro a b ha hb h
    have va := isVertex_kept ha
    have vb := isVertex_kept hb
    have ga := vertex_in_grid va
    have gb := vertex_in_grid vb
    rw [isVertex_soup_iff] at va vb
    obtain ⟨c, hc, e, he, rfl⟩ := va
    obtain ⟨c', hc', e', he', rfl⟩ := vb
    obtain ⟨i, hi⟩ := h4 c hc e he
    obtain ⟨i', hi'⟩ := h4 c' hc' e' he'
    simp only [hi, hi', Option.getD_some] at h
    subst h
    have := h2.2 _ _ _ hi hi'
    simp only [vpair, Prod.mk.injEq] at this
    exact Prod.ext (vertId_inj ga.1 gb.1 this.1) (vertId_inj ga.2.1 gb.2.1 this.2))
  have e : run properPy (fun k => ((d.look (vpair W H k)).getD 0)) val iso W H D = some s := h6
  rw [e] at r1
  cases r1
  exact ⟨_, by rw [marchingCubesPy, h1]; rfl, r2⟩

/-! ### Positions -/

theorem eps_pos : (0 : K) < eps := by unfold eps; positivity

theorem below_ne {val : P → K} {iso : K} {p q : P} (h : below val iso p ≠ below val iso q) :
    (val p < iso ∧ iso ≤ val q) ∨ (val q < iso ∧ iso ≤ val p) := by
  unfold below at h
  by_cases h1 : val p < iso <;> by_cases h2 : val q < iso <;> simp [h1, h2] at h
  · exact Or.inl ⟨h1, not_lt.mp h2⟩
  · exact Or.inr ⟨h2, not_lt.mp h1⟩

/-- Every vertex lies on its grid edge, and the linear interpolant of the volume there differs from the iso level by less
than `EPS`; it is equal to it if neither end point has a value within `EPS` of the iso level. -/
theorem interp_spec {val : P → K} {iso : K} {k : Key} (h : below val iso k.1 ≠ below val iso k.2) :
    ∃ t : K, 0 ≤ t ∧ t ≤ 1 ∧ interp val iso k = (1 - t) • pos k.1 + t • pos k.2
      ∧ |(1 - t) * val k.1 + t * val k.2 - iso| < eps
      ∧ (eps ≤ |iso - val k.1| → eps ≤ |iso - val k.2| → (1 - t) * val k.1 + t * val k.2 = iso
        ∧ t * |val k.2 - val k.1| = |iso - val k.1| ∧ (1 - t) * |val k.2 - val k.1| = |iso - val k.2|) := by
  have hv := below_ne h
  have e0 := eps_pos (K := K)
  unfold interp
  by_cases h1 : |iso - val k.1| < eps
  · refine ⟨0, le_refl _, zero_le_one, ?_, ?_, fun h' => absurd h1 (not_lt.mpr h')⟩
    · rw [if_pos h1]; ext <;> simp
    · rw [abs_sub_comm] at h1; simpa using h1
  · rw [if_neg h1]
    by_cases h2 : |iso - val k.2| < eps
    · refine ⟨1, zero_le_one, le_refl _, ?_, ?_, fun _ h' => absurd h2 (not_lt.mpr h')⟩
      · rw [if_pos h2]; ext <;> simp
      · rw [abs_sub_comm] at h2; simpa using h2
    · rw [if_neg h2]
      rw [not_lt] at h1 h2
      have h3 : ¬ |val k.1 - val k.2| < eps := by
        rw [not_lt]
        rcases hv with ⟨a, b⟩ | ⟨a, b⟩
        · rw [abs_of_pos (by linarith)] at h1
          rw [abs_of_neg (by linarith)]; linarith
        · rw [abs_of_neg (by rcases lt_or_eq_of_le b with b | b
                             · linarith
                             · rw [b] at h1; simp at h1; linarith)] at h1
          rw [abs_of_pos (by linarith)]; linarith
      rw [if_neg h3]
      have hd : val k.2 - val k.1 ≠ 0 := by rcases hv with ⟨a, b⟩ | ⟨a, b⟩ <;> [exact ne_of_gt (by linarith); exact ne_of_lt (by linarith)]
      have hval : (1 - (iso - val k.1) / (val k.2 - val k.1)) * val k.1 + (iso - val k.1) / (val k.2 - val k.1) * val k.2 = iso := by
        field_simp; ring
      refine ⟨(iso - val k.1) / (val k.2 - val k.1), ?_, ?_, rfl, ?_, fun _ _ => ⟨hval, ?_, ?_⟩⟩
      · rcases hv with ⟨a, b⟩ | ⟨a, b⟩
        · exact div_nonneg (by linarith) (by linarith)
        · exact div_nonneg_of_nonpos (by linarith) (by linarith)
      · rcases hv with ⟨a, b⟩ | ⟨a, b⟩
        · rw [div_le_one (by linarith)]; linarith
        · rw [div_le_one_of_neg (by linarith)]; linarith
      · rw [hval]; simpa using e0
      · rcases hv with ⟨a, b⟩ | ⟨a, b⟩
        · rw [abs_of_pos (by linarith), abs_of_pos (by linarith)]; field_simp
        · rw [abs_of_neg (by linarith), abs_of_nonpos (by linarith)]; field_simp
      · rcases hv with ⟨a, b⟩ | ⟨a, b⟩
        · rw [abs_of_pos (by linarith), abs_of_nonpos (by linarith)]; field_simp; ring
        · rw [abs_of_neg (by linarith), abs_of_pos (by linarith)]; field_simp; ring

/-- A cut grid edge is crossed well inside: neither end value is within `EPS` of the iso level and the crossing is at least
`EPS` away from both end points. -/
def Margin (val : P → K) (iso : K) (k : Key) : Prop :=
  eps ≤ |iso - val k.1| ∧ eps ≤ |iso - val k.2| ∧ eps * |val k.2 - val k.1| ≤ |iso - val k.1|
    ∧ eps * |val k.2 - val k.1| ≤ |iso - val k.2|

/-- Coordinate `ax` of a vector. -/
def vcomp (ax : Nat) (v : V3 K) : K := if ax = 0 then v.x else if ax = 1 then v.y else v.z

theorem vcomp_pos (ax : Nat) (p : P) : vcomp ax (pos p : V3 K) = (comp ax p : K) := by
  unfold vcomp comp pos; split_ifs <;> rfl

theorem vcomp_lin (ax : Nat) (a b : K) (v w : V3 K) : vcomp ax (a • v + b • w) = a * vcomp ax v + b * vcomp ax w := by
  unfold vcomp; split_ifs <;> simp [V3.smul_x, V3.smul_y, V3.smul_z]

theorem differ_of {a b : V3 K} {ax : Nat} (h : eps ≤ |vcomp ax a - vcomp ax b|) : differ a b = true := by
  unfold vcomp at h
  unfold differ
  split_ifs at h <;> simp [h]

theorem margin_coord {val : P → K} {iso : K} {k : Key} {ax : Nat} (hk : k.2 = padd k.1 (unit ax)) (hax : ax < 3)
    (hb : below val iso k.1 ≠ below val iso k.2) (hm : Margin val iso k) :
    (∀ ay < 3, ay ≠ ax → vcomp ay (interp val iso k) = (comp ay k.1 : K)) ∧
    eps ≤ vcomp ax (interp val iso k) - (comp ax k.1 : K) ∧ vcomp ax (interp val iso k) - (comp ax k.1 : K) ≤ 1 - eps := by
  obtain ⟨t, t0, t1, ht, _, hlast⟩ := interp_spec hb
  obtain ⟨_, q1, q2⟩ := hlast hm.1 hm.2.1
  have hd : 0 < |val k.2 - val k.1| := by
    rw [abs_pos, sub_ne_zero]
    rintro e
    apply hb; unfold below; rw [e]
  have b1 : eps ≤ t := by
    have := hm.2.2.1; rw [← q1] at this; exact le_of_mul_le_mul_right this hd
  have b2 : eps ≤ 1 - t := by
    have := hm.2.2.2; rw [← q2] at this; exact le_of_mul_le_mul_right this hd
  rw [ht]
  simp only [vcomp_lin, vcomp_pos, hk, comp_padd]
  refine ⟨fun ay hay hne => ?_, ?_, ?_⟩
  · rw [comp_unit ax ay hax hay, if_neg hne]; push_cast; ring
  · rw [comp_unit ax ax hax hax, if_pos rfl]; push_cast; linarith
  · rw [comp_unit ax ax hax hax, if_pos rfl]; push_cast; linarith

theorem edge_pair_check : ((List.range 12).all fun e => (List.range 12).all fun e' => (List.range 3).all fun ax =>
    (List.range 3).all fun ay =>
      if e != e' && hi e == padd (lo e) (unit ax) && hi e' == padd (lo e') (unit ay) then
        (ax != ay && comp ax (lo e) == 0 && (comp ax (lo e') == 0 || comp ax (lo e') == 1)) ||
        (ax == ay && (List.range 3).any fun az => az != ax && ((comp az (lo e) == 0 && comp az (lo e') == 1)
          || (comp az (lo e) == 1 && comp az (lo e') == 0)))
      else true) = true := by decide +kernel

theorem edge_pair {e e' ax ay : Nat} (he : e < 12) (he' : e' < 12) (hne : e ≠ e') (hax : ax < 3)
    (h : hi e = padd (lo e) (unit ax)) (hay : ay < 3) (h' : hi e' = padd (lo e') (unit ay)) :
    (ax ≠ ay ∧ comp ax (lo e) = 0 ∧ (comp ax (lo e') = 0 ∨ comp ax (lo e') = 1)) ∨
    (ax = ay ∧ ∃ az < 3, az ≠ ax ∧ ((comp az (lo e) = 0 ∧ comp az (lo e') = 1) ∨ (comp az (lo e) = 1 ∧ comp az (lo e') = 0))) := by
  have q := List.all_eq_true.mp (List.all_eq_true.mp (List.all_eq_true.mp (List.all_eq_true.mp edge_pair_check e
    (List.mem_range.mpr he)) e' (List.mem_range.mpr he')) ax (List.mem_range.mpr hax)) ay (List.mem_range.mpr hay)
  rw [if_pos (by simp [hne, h, h'])] at q
  simp only [Bool.or_eq_true, Bool.and_eq_true, bne_iff_ne, beq_iff_eq, List.any_eq_true, List.mem_range, ne_eq] at q
  rcases q with ⟨⟨a, b⟩, c⟩ | ⟨a, az, b, c, d⟩
  · exact Or.inl ⟨a, b, c⟩
  · exact Or.inr ⟨a, az, b, c, d⟩

theorem cellEdge_axis {c : P} {e ax : Nat} (h : hi e = padd (lo e) (unit ax)) :
    (cellEdge c e).2 = padd (cellEdge c e).1 (unit ax) := by
  simp only [cellEdge, h, padd, Prod.mk.injEq]
  refine ⟨?_, ?_, ?_⟩ <;> omega

/-- Vertices on different edges of a cell, crossed well inside, are different for C++ and Python. -/
theorem differ_of_margin {val : P → K} {iso : K} {c : P} {e e' : Nat} (he : e < 12) (he' : e' < 12) (hne : e ≠ e')
    (hb : below val iso (cellEdge c e).1 ≠ below val iso (cellEdge c e).2)
    (hb' : below val iso (cellEdge c e').1 ≠ below val iso (cellEdge c e').2)
    (hm : Margin val iso (cellEdge c e)) (hm' : Margin val iso (cellEdge c e')) :
    differ (interp val iso (cellEdge c e)) (interp val iso (cellEdge c e')) = true := by
  obtain ⟨ax, hax, h⟩ := edge_axis e he
  obtain ⟨ay, hay, h'⟩ := edge_axis e' he'
  have M := margin_coord (cellEdge_axis (c := c) h) hax hb hm
  have M' := margin_coord (cellEdge_axis (c := c) h') hay hb' hm'
  have e1 : (eps : K) ≤ 1 := by unfold eps; norm_num
  simp only [cellEdge, comp_padd] at M M'
  rcases edge_pair he he' hne hax h hay h' with ⟨hxy, h0, h01⟩ | ⟨rfl, az, haz, hzx, h01⟩
  · apply differ_of (ax := ax)
    have q := M'.1 ax hax hxy
    simp only [cellEdge]
    rw [q]
    have m1 := M.2.1
    have m2 := M.2.2
    rw [h0] at m1 m2
    push_cast at m1 m2 ⊢
    rcases h01 with h01 | h01 <;> rw [h01] <;> push_cast
    · rw [abs_of_nonneg] <;> linarith [eps_pos (K := K)]
    · rw [abs_of_nonpos] <;> linarith [eps_pos (K := K)]
  · apply differ_of (ax := az)
    have q := M.1 az haz hzx
    have q' := M'.1 az haz hzx
    simp only [cellEdge]
    rw [q, q']
    rcases h01 with ⟨a, b⟩ | ⟨a, b⟩ <;> rw [a, b] <;> push_cast
    · rw [abs_of_nonpos] <;> linarith
    · rw [abs_of_nonneg] <;> linarith

theorem triples_ne {α : Type} {l : List α} {t : α × α × α} (ht : t ∈ triples l) (h : ∀ d ∈ dirEdges (triples l), d.1 ≠ d.2) :
    t.1 ≠ t.2.1 ∧ t.2.1 ≠ t.2.2 ∧ t.2.2 ≠ t.1 := by
  have hm : ∀ d ∈ triEdges t, d ∈ dirEdges (triples l) := fun d hd => List.mem_flatMap.mpr ⟨t, ht, hd⟩
  exact ⟨h _ (hm (t.1, t.2.1) (by simp [triEdges])), h _ (hm (t.2.1, t.2.2) (by simp [triEdges])),
    h _ (hm (t.2.2, t.1) (by simp [triEdges]))⟩

/-- If all cut edges are crossed well inside, no triangle is degenerate. -/
theorem proper_of_margin {val : P → K} {iso : K} {W H D : Nat}
    (hm : ∀ k, IsVertex (soup (below val iso) W H D) k → Margin val iso k) :
    ∀ t ∈ soup (below val iso) W H D, properTri properCpu val iso t = true := by
  intro t ht
  have hv : ∀ k, (k = t.1 ∨ k = t.2.1 ∨ k = t.2.2) → Margin val iso k ∧ below val iso k.1 ≠ below val iso k.2 :=
    fun k hk => ⟨hm k ⟨t, ht, hk⟩, (vertex_in_grid ⟨t, ht, hk⟩).2.2.1⟩
  simp only [soup, List.mem_flatMap, cellTris, triples_map, List.mem_map] at ht
  obtain ⟨c, hc, u, hu, rfl⟩ := ht
  have R := row_facts (cubeIndex_lt (below val iso) c)
  have hr := mem_triples _ _ hu
  simp only [R.2.2.1] at hr
  have hn := triples_ne hu fun d hd => (R.2.2.2.2 d hd).1
  have a := hv _ (Or.inl rfl)
  have b := hv _ (Or.inr (Or.inl rfl))
  have d := hv _ (Or.inr (Or.inr rfl))
  unfold properTri properCpu
  rw [differ_of_margin hr.1.1 hr.2.1.1 hn.1 a.2 b.2 a.1 b.1, differ_of_margin hr.2.1.1 hr.2.2.1 hn.2.1 b.2 d.2 b.1 d.1,
    differ_of_margin hr.2.2.1 hr.1.1 hn.2.2 d.2 a.2 d.1 a.1]
  rfl

theorem properPy_of_cpu {a b c : V3 K} (h : properCpu a b c = true) : properPy a b c = true := by
  have key : ∀ {a b : V3 K}, differ a b = true → (decide (a.x = b.x) && decide (a.y = b.y) && decide (a.z = b.z)) = false := by
    intro a b h
    by_contra hc
    simp only [Bool.not_eq_false, Bool.and_eq_true, decide_eq_true_eq] at hc
    have e := eps_pos (K := K)
    simp only [differ, hc.1.1, hc.1.2, hc.2, sub_self, abs_zero, Bool.or_eq_true, decide_eq_true_eq] at h
    rcases h with (h | h) | h <;> exact absurd e (not_lt.mpr h)
  simp only [properCpu, Bool.and_eq_true] at h
  simp [properPy, key h.1.1, key h.1.2, key h.2]

/-! ### Properties of the result -/

theorem idx_lt {α : Type} [DecidableEq α] {ks : List α} {a : α} (ha : a ∈ ks) : ks.idx a < ks.length :=
  List.idxOf_lt_length_iff.mpr ha

theorem getElem_idx {α : Type} [DecidableEq α] {ks : List α} {a : α} (ha : a ∈ ks) : ks[ks.idx a]? = some a := by
  rw [List.getElem?_eq_getElem (idx_lt ha)]
  congr 1
  unfold List.idx; exact List.getElem_idxOf _

theorem idx_getElem {α : Type} [DecidableEq α] {ks : List α} (h : ks.Nodup) {i : Nat} (hi : i < ks.length) : ks.idx ks[i] = i := by
  unfold List.idx; exact h.idxOf_getElem i hi

theorem idx_inj {α : Type} [DecidableEq α] {ks : List α} {a b : α} (ha : a ∈ ks) (h : ks.idx a = ks.idx b) : a = b := by
  unfold List.idx at h
  exact (List.idxOf_inj ha).mp h

/-- Properties of a mesh are those of its triangles of grid edges: indices are valid, every vertex is used, no directed edge
occurs more often than before, and a closed list of triangles gives a closed mesh. -/
theorem mesh_props {val : P → K} {iso : K} {ts : List (Key × Key × Key)} {m : List (V3 K) × List (Nat × Nat × Nat)}
    (h : IsMeshOf val iso ts m) :
    (∀ f ∈ m.2, f.1 < m.1.length ∧ f.2.1 < m.1.length ∧ f.2.2 < m.1.length)
    ∧ (∀ i < m.1.length, IsVertex m.2 i)
    ∧ (m.2.map fun f => (m.1[f.1]?, m.1[f.2.1]?, m.1[f.2.2]?))
      = (ts.map fun t => (some (interp val iso t.1), some (interp val iso t.2.1), some (interp val iso t.2.2)))
    ∧ ((dirEdges ts).Nodup → (dirEdges m.2).Nodup)
    ∧ (IsClosed ts → IsClosed m.2) := by
  obtain ⟨ks, h1, h2, h3, h4⟩ := h
  have hlt : ∀ k, IsVertex ts k → ks.idx k < ks.length := fun k hk => idx_lt ((h2 k).mpr hk)
  have hv : ∀ t ∈ ts, ks.idx t.1 < ks.length ∧ ks.idx t.2.1 < ks.length ∧ ks.idx t.2.2 < ks.length := fun t ht =>
    ⟨hlt _ ⟨t, ht, Or.inl rfl⟩, hlt _ ⟨t, ht, Or.inr (Or.inl rfl)⟩, hlt _ ⟨t, ht, Or.inr (Or.inr rfl)⟩⟩
  have hget : ∀ k, IsVertex ts k → m.1[ks.idx k]? = some (interp val iso k) := by
    intro k hk
    rw [h3, List.getElem?_map, getElem_idx ((h2 k).mpr hk)]; rfl
  refine ⟨?_, ?_, ?_, ?_, ?_⟩
  · rw [h4, h3, List.length_map]
    intro f hf
    obtain ⟨t, ht, rfl⟩ := List.mem_map.mp hf
    exact hv t ht
  · rw [h3, List.length_map, h4]
    intro i hi
    obtain ⟨t, ht, hk⟩ := (h2 ks[i]).mp (List.getElem_mem hi)
    have e : ks.idx ks[i] = i := idx_getElem h1 hi
    refine ⟨_, List.mem_map_of_mem ht, ?_⟩
    simp only
    rcases hk with hk | hk | hk
    · left; rw [← hk, e]
    · right; left; rw [← hk, e]
    · right; right; rw [← hk, e]
  · rw [h4, List.map_map]
    refine List.map_congr_left fun t ht => ?_
    simp only [Function.comp]
    rw [hget _ ⟨t, ht, Or.inl rfl⟩, hget _ ⟨t, ht, Or.inr (Or.inl rfl)⟩, hget _ ⟨t, ht, Or.inr (Or.inr rfl)⟩]
  · intro hn
    rw [h4, dirEdges_map]
    refine List.Nodup.map_on ?_ hn
    have hd : ∀ d ∈ dirEdges ts, d.1 ∈ ks ∧ d.2 ∈ ks := by
      intro d hd
      obtain ⟨t, ht, hd⟩ := List.mem_flatMap.mp hd
      simp only [triEdges, List.mem_cons, List.not_mem_nil, or_false] at hd
      simp only [h2]
      rcases hd with rfl | rfl | rfl
      · exact ⟨⟨t, ht, Or.inl rfl⟩, t, ht, Or.inr (Or.inl rfl)⟩
      · exact ⟨⟨t, ht, Or.inr (Or.inl rfl)⟩, t, ht, Or.inr (Or.inr rfl)⟩
      · exact ⟨⟨t, ht, Or.inr (Or.inr rfl)⟩, t, ht, Or.inl rfl⟩
    intro d1 m1 d2 m2 e
    simp only [Prod.mk.injEq] at e
    exact Prod.ext (idx_inj (hd d1 m1).1 e.1) (idx_inj (hd d1 m1).2 e.2)
  · intro hc
    rw [h4]
    exact hc.map fun k => ks.idx k

/-- **Watertight**: if every cut edge is crossed well inside, C++ (up to `2 ^ 24` points) and Python return meshes of the full
surface: every directed edge at most once, and closed if the values on the border of the volume are all on the same side. -/
theorem watertight {val : P → K} {iso : K} {W H D : Nat}
    (hm : ∀ k, IsVertex (soup (below val iso) W H D) k → Margin val iso k) :
    (W * H * D ≤ 2 ^ 24 → ∃ m, marchingCubesCpu val iso W H D = some m ∧ IsMeshOf val iso (soup (below val iso) W H D) m) ∧
    (∃ m, marchingCubesPy val iso W H D = some m ∧ IsMeshOf val iso (soup (below val iso) W H D) m) ∧
    ∀ m, IsMeshOf val iso (soup (below val iso) W H D) m → (dirEdges m.2).Nodup ∧
      ∀ s : Bool, (∀ p : P, (∃ ax < 3, comp ax p = 0 ∨ comp ax p = size W H D ax - 1) → below val iso p = s) → IsClosed m.2 := by
  have hp := proper_of_margin hm
  refine ⟨fun hs => ?_, ?_, fun m h => ⟨(mesh_props h).2.2.2.1 (soup_nodup _ _ _ _), fun s hb =>
    (mesh_props h).2.2.2.2 (soup_closed s hb).1⟩⟩
  · have := cpu_spec val iso W H D hs
    rwa [kept_eq_soup hp] at this
  · have := py_spec val iso W H D
    rwa [kept_eq_soup (proper := properPy) fun t ht => properPy_of_cpu (hp t ht)] at this

/-! ### Witnesses -/

/-- A 4 × 3 × 3 volume with two values below the iso level 0, one of them barely. -/
def holeVal (p : P) : ℚ := if p = (1, 1, 1) then -1 / 1000000 else if p = (2, 1, 1) then -1 else 1


/-- The vertices and faces computed by the C++ code. -/
def holeMesh : List (V3 ℚ) × List (Nat × Nat × Nat) :=
  ([⟨1, 1, 1⟩, ⟨2, 1, 1 / 2⟩, ⟨2, 1 / 2, 1⟩, ⟨5 / 2, 1, 1⟩, ⟨1, 1, 1⟩, ⟨2, 3 / 2, 1⟩, ⟨2, 1, 3 / 2⟩],
    [(0, 1, 2), (1, 3, 2), (4, 5, 1), (1, 5, 3), (3, 6, 2), (3, 5, 6)])

/-- The border is on one side, so the surface of all triangles is closed, but the C++ code drops proper triangles that follow a
degenerate one, and the result has holes: even when vertices at the same position are identified it is not closed. -/
theorem cpu_hole : marchingCubesCpu holeVal 0 4 3 3 = some holeMesh
    ∧ IsClosed (soup (below holeVal 0) 4 3 3)
    ∧ ¬ IsClosed (holeMesh.2.map fun f => (holeMesh.1[f.1]?, holeMesh.1[f.2.1]?, holeMesh.1[f.2.2]?))
    ∧ ∃ t ∈ soup (below holeVal 0) 4 3 3, properTri properCpu holeVal 0 t = true ∧ t ∉ kept properCpu holeVal 0 4 3 3 := by
  refine ⟨by decide +kernel, (soup_closed false ?_).1, fun h => ?_, ?_⟩
  · rintro p ⟨ax, hax, h⟩
    have h1 : p ≠ (1, 1, 1) := by rintro rfl; interval_cases ax <;> simp [comp, size] at h
    have h2 : p ≠ (2, 1, 1) := by rintro rfl; interval_cases ax <;> simp [comp, size] at h
    simp [below, holeVal, h1, h2]
  · have h1 := h (some ⟨2, 1 / 2, 1⟩) (some ⟨1, 1, 1⟩)
    revert h1; decide +kernel
  · have hany : ((soup (below holeVal 0) 4 3 3).any fun t =>
        properTri properCpu holeVal 0 t && !(kept properCpu holeVal 0 4 3 3).contains t) = true := by decide +kernel
    obtain ⟨t, ht, h⟩ := List.any_eq_true.mp hany
    simp only [Bool.and_eq_true, Bool.not_eq_true'] at h
    exact ⟨t, ht, h.1, fun hk => by rw [List.contains_iff_mem.mpr hk] at h; cases h.2⟩

/-- One value below the iso level in a 3 × 3 × 3 volume: an octahedron, from C++ and Python alike. -/
def octaVal (p : P) : ℚ := if p = (1, 1, 1) then -1 else 1

example : ((marchingCubesCpu octaVal 0 3 3 3).map fun m => (m.1.length, m.2.length)) = some (6, 8)
    ∧ marchingCubesPy octaVal 0 3 3 3 = marchingCubesCpu octaVal 0 3 3 3
    ∧ ((marchingCubesCpu octaVal 0 3 3 3).map fun m => m.1[0]?) = some (some ⟨1, 1 / 2, 1⟩) := by
  decide +kernel

end P3D.Marching
