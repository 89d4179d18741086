/-
`marching_cubes` on CUDA: the three kernels with their exclusive scans, the removal of duplicate vertices in Python, the
conversion to local coordinates and the loop over the batch.
-/
import Verif.MarchingCubes
import Verif.Chunks
import Verif.Mem
import Verif.Scatter
import Verif.Transform3dProps
import Mathlib.Data.List.Sort
import Mathlib.Data.List.Dedup

set_option linter.unusedSectionVars false

namespace P3D.Marching

open P3D.Closed P3D.Mem

variable {K : Type} [Field K] [LinearOrder K] [IsStrictOrderedRing K]

/-! ### Model of the kernels -/

/-- `numVertsTable` (marching_cubes.cu:165-181, the same again in 286-302). -/
def numVertsTable : List Nat :=
  [0, 3, 3, 6, 3, 6, 6, 9, 3, 6, 6, 9, 6, 9, 9, 6, 3, 6, 6, 9, 6, 9, 9, 12, 6, 9, 9, 12, 9, 12, 12, 9,
   3, 6, 6, 9, 6, 9, 9, 12, 6, 9, 9, 12, 9, 12, 12, 9, 6, 9, 9, 6, 9, 12, 12, 9, 9, 12, 12, 9, 12, 15, 15, 6,
   3, 6, 6, 9, 6, 9, 9, 12, 6, 9, 9, 12, 9, 12, 12, 9, 6, 9, 9, 12, 9, 12, 12, 15, 9, 12, 12, 15, 12, 15, 15, 12,
   6, 9, 9, 12, 9, 12, 6, 9, 9, 12, 12, 15, 12, 15, 9, 6, 9, 12, 12, 9, 12, 15, 9, 6, 12, 15, 15, 12, 15, 6, 12, 3,
   3, 6, 6, 9, 6, 9, 9, 12, 6, 9, 9, 12, 9, 12, 12, 9, 6, 9, 9, 12, 9, 12, 12, 15, 9, 6, 12, 9, 12, 9, 15, 6,
   6, 9, 9, 12, 9, 12, 12, 15, 9, 12, 12, 15, 12, 15, 15, 12, 9, 12, 12, 9, 12, 15, 15, 12, 12, 9, 15, 6, 15, 12, 6, 3,
   6, 9, 9, 12, 9, 12, 12, 15, 9, 12, 12, 15, 6, 9, 9, 6, 9, 12, 12, 15, 12, 15, 15, 6, 12, 9, 15, 12, 9, 6, 12, 3,
   9, 12, 12, 15, 12, 15, 9, 12, 12, 15, 15, 6, 9, 12, 6, 3, 6, 9, 9, 6, 9, 12, 6, 3, 9, 6, 12, 3, 6, 3, 3, 0]

/-- `indexTable` of the kernels (marching_cubes.cu:155, 308): the bit of each corner. -/
def gpuIndexTable : List Nat := [0, 1, 4, 5, 3, 2, 7, 6]

/-- End points (numbered as bits) of the entries of `vertlist` (marching_cubes.cu:342-355). -/
def vertlistEnds : List (Nat × Nat) :=
  [(0, 1), (1, 2), (3, 2), (0, 3), (4, 5), (5, 6), (7, 6), (4, 7), (0, 4), (1, 5), (2, 6), (3, 7)]

/-- `cubeindex` (marching_cubes.cu:189-202, 322-335). -/
def gpuCubeIndex (below : P → Bool) (c : P) : Nat :=
  (List.range 8).foldl (fun acc i => if below (padd c (corner i)) then acc ||| (1 <<< gpuIndexTable.getD i 0) else acc) 0

/-- The array `p` (marching_cubes.cu:336-337): `p[indexTable[i]]` is corner `i`; `val` holds the values there. -/
def gpuCorners (c : P) : List P :=
  (List.range 8).foldl (fun a i => a.set (gpuIndexTable.getD i 0) (padd c (corner i))) (List.replicate 8 (0, 0, 0))

/-- The end points used for `vertlist[e]`. -/
def gpuEdge (c : P) (e : Nat) : Key :=
  ((gpuCorners c).getD (vertlistEnds.getD e (0, 0)).1 (0, 0, 0), (gpuCorners c).getD (vertlistEnds.getD e (0, 0)).2 (0, 0, 0))

/-- Position of a voxel (marching_cubes.cu:185-187, 318-320); `W`, `H` count cells. -/
def voxelAt (W H t : Nat) : P := (t % W, t / W % H, t / (W * H))

/-- `ExclusiveScanAndTotal` (marching_cubes.cu:401-423): the prefix sums, then the total. -/
def scan : Nat → List Nat → List Nat
  | acc, [] => [acc]
  | acc, x :: l => acc :: scan (acc + x) l

/-- `grid` for `n` items (marching_cubes.cu:476-479, 547-550); 128 threads per block. -/
def gridFor (n : Nat) : Nat := min ((n + 127) / 128) 65535

/-- Output tensors of `MarchingCubesCuda`. -/
structure Raw (K : Type) where
  verts : List (V3 K)
  faces : List (Nat × Nat × Nat)
  ids : List Nat
  deriving DecidableEq

/-- The stores of one voxel (marching_cubes.cu:358-381): index, cell, edge. -/
def emit (below : P → Bool) (W H : Nat) (vs : List Nat) (voxel : Nat) : List (Nat × P × Nat) :=
  let c := voxelAt W H voxel
  let r := gpuCubeIndex below c
  (List.range (numVertsTable.getD r 0)).map fun i => (vs.getD voxel 0 + i, c, (faceTable.getD r []).getD i 0)

/-- `MarchingCubesCuda` (marching_cubes.cu:452-566).  `sh` is the order in which the stores of a kernel to one tensor happen to be
executed.  `none`: a launch with an empty grid, which CUDA rejects, or a store outside a tensor.  The lookups `getD` are in
range: the tables have 256 rows, the scans `n + 1` entries. -/
def gpuRaw (sh : ∀ α : Type, List α → List α) (val : P → K) (iso : K) (W H D : Nat) : Option (Raw K) :=
  let n := (D - 1) * (H - 1) * (W - 1)
  let nv := fun t => numVertsTable.getD (gpuCubeIndex (below val iso) (voxelAt (W - 1) (H - 1) t)) 0
  let tids := Chunks.gridStride (gridFor n) 128 n
  if n = 0 then none else do
    let vv ← writeAll (List.replicate n 0) (sh _ (tids.map fun t => (t, nv t)))
    let occ ← writeAll (List.replicate n 0) (sh _ (tids.map fun t => (t, if nv t > 0 then 1 else 0)))
    let os := scan 0 occ
    let active := os.getD n 0
    if active = 0 then some ⟨[], [], []⟩ else do
      let comp ← writeAll (List.replicate active 0)
        (sh _ ((tids.filter fun t => decide (occ.getD t 0 ≠ 0)).map fun t => (os.getD t 0, t)))
      let vs := scan 0 vv
      let total := vs.getD n 0
      let es := (Chunks.gridStride (gridFor active) 128 active).flatMap fun t =>
        emit (below val iso) (W - 1) (H - 1) vs (comp.getD t 0)
      let verts ← writeAll (List.replicate total 0) (sh _ (es.map fun x => (x.1, interp val iso (gpuEdge x.2.1 x.2.2))))
      let faces ← writeAll (List.replicate (total / 3) (0, 0, 0))
        (sh _ ((es.filter fun x => decide (x.1 < total / 3)).map fun x => (x.1, x.1 * 3 + 0, x.1 * 3 + 1, x.1 * 3 + 2)))
      let ids ← writeAll (List.replicate total 0) (sh _ (es.map fun x => (x.1, hash W H D (cellEdge x.2.1 x.2.2))))
      some ⟨verts, faces, ids⟩

/-- `torch.unique`: the distinct values in ascending order. -/
def uniqueNat (l : List Nat) : List Nat := l.dedup.insertionSort (· ≤ ·)

/-- Removal of duplicates (ops/marching_cubes.py:295-300); `sh` is the order of the stores of line 298. -/
def dedupMesh (sh : ∀ α : Type, List α → List α) (r : Raw K) : Option (List (V3 K) × List (Nat × Nat × Nat)) :=
  let u := uniqueNat r.ids
  let inv := r.ids.map u.idx
  (writeAll (List.replicate u.length 0) (sh _ (inv.zip r.verts))).map fun verts =>
    (verts, r.faces.map fun f => (inv.getD f.1 0, inv.getD f.2.1 0, inv.getD f.2.2 0))

/-! ### Tables -/

theorem numVerts_check : ((List.range 256).all fun r => numVertsTable.getD r 0 == (row r).length
    && (List.range 16).all fun i => decide (i < (row r).length) == false || (faceTable.getD r []).getD i 0 == (row r).getD i 0) = true := by
  decide +kernel

theorem numVerts_facts {r : Nat} (hr : r < 256) : numVertsTable.getD r 0 = (row r).length ∧
    ∀ i < (row r).length, (faceTable.getD r []).getD i 0 = (row r).getD i 0 := by
  have h := List.all_eq_true.mp numVerts_check r (List.mem_range.mpr hr)
  rw [Bool.and_eq_true, beq_iff_eq, List.all_eq_true] at h
  refine ⟨h.1, fun i hi => ?_⟩
  have h2 := h.2 i (List.mem_range.mpr (by have := (row_facts hr).2.1; omega))
  simpa [hi] using h2

theorem gpuCubeIndex_eq (below : P → Bool) (c : P) : gpuCubeIndex below c = cubeIndex below c := by
  have e : ∀ b : Fin 8 → Bool,
      (List.range 8).foldl (fun acc i => if (if h : i < 8 then b ⟨i, h⟩ else false) then acc ||| (1 <<< gpuIndexTable.getD i 0) else acc) 0
      = build fun i => if h : indexTable.getD i 0 < 8 then b ⟨indexTable.getD i 0, h⟩ else false := by
    decide +kernel
  have h := e fun i => below (padd c (corner i))
  unfold gpuCubeIndex cubeIndex
  have e1 : ∀ i, i < 8 → indexTable.getD i 0 < 8 := by decide
  have h2 : (build fun i => below (padd c (corner (indexTable.getD i 0))))
      = build fun i => if h : indexTable.getD i 0 < 8 then below (padd c (corner (indexTable.getD i 0))) else false :=
    build_congr fun i hi => by rw [dif_pos (e1 i hi)]
  rw [h2, ← h]
  rfl

theorem gpuEdge_eq (c : P) {e : Nat} (he : e < 12) : gpuEdge c e = cellEdge c e := by
  interval_cases e <;> rfl

/-! ### Memory -/

variable {α : Type}

/-- Stores of all entries of a list, in any order. -/
theorem writeAll_perm {buf l : List α} {ws : List (Nat × α)} (hb : buf.length = l.length)
    (hp : ws.Perm ((List.range l.length).zip l)) : writeAll buf ws = some l := by
  have hk : (ws.map Prod.fst).Perm (List.range l.length) := by
    have := hp.map Prod.fst
    rwa [List.map_fst_zip (by simp)] at this
  obtain ⟨out, h1, h2, h3, -⟩ := writeAll_ok buf ws
    (fun w hw => by
      have := hk.mem_iff.mp (List.mem_map_of_mem hw)
      rw [hb]; exact List.mem_range.mp this) (hk.symm.nodup List.nodup_range)
  rw [h1]
  congr 1
  apply List.ext_getElem? fun i => ?_
  by_cases hi : i < l.length
  · have := h3 (i, l[i]) (hp.mem_iff.mpr (by
      rw [List.mem_iff_getElem]; exact ⟨i, by simpa using hi, by simp⟩))
    rw [this, List.getElem?_eq_getElem hi]
  · rw [List.getElem?_eq_none (by omega), List.getElem?_eq_none (by omega)]

/-- Repeated stores do no harm if the value is a function of the address. -/
theorem writeAll_fn {buf : List α} (v : Nat → α) : ∀ {ws : List (Nat × α)}, (∀ w ∈ ws, w.1 < buf.length ∧ w.2 = v w.1) →
    ∃ out, writeAll buf ws = some out ∧ out.length = buf.length ∧
      ∀ k, out[k]? = if k ∈ ws.map Prod.fst then some (v k) else buf[k]? := by
  intro ws
  induction ws generalizing buf with
  | nil => intro _; exact ⟨buf, rfl, rfl, by simp⟩
  | cons w ws ih =>
    intro h
    have hw := h w (by simp)
    obtain ⟨out, h1, h2, h3⟩ := ih (buf := buf.set w.1 w.2) fun w' hw' => by simpa using h w' (by simp [hw'])
    refine ⟨out, by rw [writeAll_cons, write, if_pos hw.1]; exact h1, by simpa using h2, fun k => ?_⟩
    rw [h3]
    by_cases hk : k ∈ ws.map Prod.fst
    · rw [if_pos hk, if_pos (by simp only [List.map_cons, List.mem_cons]; exact Or.inr hk)]
    · rw [if_neg hk]
      by_cases e : k = w.1
      · subst e; simp [hw]
      · rw [List.getElem?_set_ne (Ne.symm e), if_neg (by simp only [List.map_cons, List.mem_cons]; tauto)]

theorem scan_getD : ∀ (l : List Nat) (acc i : Nat), i ≤ l.length → (scan acc l).getD i 0 = acc + (l.take i).sum
  | [], acc, i, h => by obtain rfl : i = 0 := by simpa using h
                        simp [scan]
  | x :: l, acc, 0, _ => by simp [scan]
  | x :: l, acc, i + 1, h => by
    rw [scan, List.getD_cons_succ, scan_getD l _ i (by simpa using h), List.take_succ_cons, List.sum_cons, Nat.add_assoc]

/-- Storing list `f t` from its offset on, for all `t`, stores the concatenation. -/
theorem flatMap_offsets (f : Nat → List α) (d : α) : ∀ n : Nat,
    ((List.range n).flatMap fun t => (List.range (f t).length).map fun i =>
        ((((List.range t).map fun s => (f s).length).sum + i), (f t).getD i d))
      = (List.range ((List.range n).flatMap f).length).zip ((List.range n).flatMap f)
  | 0 => rfl
  | n + 1 => by
    rw [List.range_succ, List.flatMap_append, flatMap_offsets f d n, List.flatMap_append, List.length_append,
      List.range_add, List.zip_append (by simp [List.length_flatMap])]
    congr 1
    simp only [List.flatMap_singleton]
    rw [List.length_flatMap]
    apply List.ext_getElem (by simp)
    intro i h1 h2
    simp only [List.length_map, List.length_range] at h1
    simp [h1]

theorem cells_eq (W H D : Nat) :
    cells W H D = (List.range ((D - 1) * (H - 1) * (W - 1))).map (voxelAt (W - 1) (H - 1)) := by
  rw [← List.flatMap_singleton' (l := (List.range _).map _), List.flatMap_map, Scatter.flatMap_range_mul, Scatter.flatMap_range_mul, cells]
  refine Scatter.flatMap_congr' fun z _ => Scatter.flatMap_congr' fun y hy => ?_
  rw [← List.flatMap_singleton' (l := (List.range _).map _), List.flatMap_map]
  refine Scatter.flatMap_congr' fun x hx => ?_
  rw [List.mem_range] at hx hy
  unfold voxelAt
  rw [Scatter.mod_decode hx, Scatter.div_decode hx, Scatter.mod_decode hy, ← Nat.div_div_eq_div_mul, Scatter.div_decode hx,
    Scatter.div_decode hy]

theorem gridFor_perm {n : Nat} (h : 0 < n) : (Chunks.gridStride (gridFor n) 128 n).Perm (List.range n) :=
  Chunks.gridStride_perm (by unfold gridFor; omega) (by omega) n

theorem zip_range_map (g : Nat → α) (n : Nat) : (List.range n).map (fun t => (t, g t)) = (List.range ((List.range n).map g).length).zip ((List.range n).map g) := by
  apply List.ext_getElem (by simp)
  intro i h1 h2
  simp

theorem getD_of_lt {l : List α} (d : α) {i : Nat} (h : i < l.length) : l.getD i d = l[i] := by
  rw [List.getD_eq_getElem?_getD, List.getElem?_eq_getElem h]; rfl

theorem filter_eq_flatMap' (p : α → Bool) : ∀ l : List α, l.filter p = l.flatMap fun t => if p t then [t] else []
  | [] => rfl
  | a :: l => by
    rw [List.filter_cons, List.flatMap_cons, filter_eq_flatMap' p l]
    split <;> simp [*]

/-! ### The kernels -/

/-- The grid edges in the order of the vertices written by the kernel. -/
def vertexEdges (below : P → Bool) (W H D : Nat) : List Key :=
  (cells W H D).flatMap fun c => (row (cubeIndex below c)).map (cellEdge c)

theorem length_vertexEdges_mod (below : P → Bool) (W H D : Nat) : (vertexEdges below W H D).length % 3 = 0 := by
  unfold vertexEdges
  induction cells W H D with
  | nil => rfl
  | cons c l ih =>
    have := (row_facts (cubeIndex_lt below c)).1
    rw [List.flatMap_cons, List.length_append, List.length_map]
    omega

theorem triples_append {l l' : List α} (h : l.length % 3 = 0) : triples (l ++ l') = triples l ++ triples l' := by
  induction l using triples.induct with
  | case1 a b c l ih =>
    simp only [List.length_cons] at h
    rw [List.cons_append, List.cons_append, List.cons_append, triples, triples, ih (by omega), List.cons_append]
  | case2 l hl =>
    rcases l with _ | ⟨a, _ | ⟨b, _ | ⟨c, l⟩⟩⟩
    · rfl
    · simp at h
    · simp at h
    · exact absurd rfl (hl a b c l)

theorem soup_eq_triples (below : P → Bool) (W H D : Nat) : soup below W H D = triples (vertexEdges below W H D) := by
  unfold soup vertexEdges
  induction cells W H D with
  | nil => rfl
  | cons c l ih =>
    rw [List.flatMap_cons, List.flatMap_cons, triples_append, ih]
    · rfl
    · rw [List.length_map]; exact (row_facts (cubeIndex_lt below c)).1

theorem triples_eq_range (d : α) (l : List α) :
    triples l = (List.range (l.length / 3)).map fun i => (l.getD (i * 3 + 0) d, l.getD (i * 3 + 1) d, l.getD (i * 3 + 2) d) := by
  induction l using triples.induct with
  | case1 a b c l ih =>
    have e : (a :: b :: c :: l).length / 3 = l.length / 3 + 1 := by simp only [List.length_cons]; omega
    rw [triples, e, List.range_succ_eq_map, List.map_cons, List.map_map, ih]
    congr 1
    apply List.map_congr_left
    intro i _
    have e2 : ∀ k, (Nat.succ i) * 3 + k = i * 3 + k + 1 + 1 + 1 := by intro k; omega
    show _ = ((a :: b :: c :: l).getD (Nat.succ i * 3 + 0) d, _, _)
    rw [e2, e2, e2]; rfl
  | case2 l hl =>
    rcases l with _ | ⟨a, _ | ⟨b, _ | ⟨c, l⟩⟩⟩
    · simp [triples]
    · simp [triples]
    · simp [triples]
    · exact absurd rfl (hl a b c l)

variable (sh : ∀ α : Type, List α → List α) (hsh : ∀ (α : Type) (l : List α), (sh α l).Perm l)

include hsh

/-- **The CUDA kernels**, whatever the order of the stores: one vertex for each corner of each triangle, in the order of the cells,
with the position on its grid edge and the hash of that edge as its id; face `i` consists of vertices `3 i`, `3 i + 1`, `3 i + 2`. -/
theorem gpuRaw_spec (val : P → K) (iso : K) {W H D : Nat} (hW : 2 ≤ W) (hH : 2 ≤ H) (hD : 2 ≤ D) :
    gpuRaw sh val iso W H D = some ⟨(vertexEdges (below val iso) W H D).map (interp val iso),
      (List.range ((vertexEdges (below val iso) W H D).length / 3)).map fun i => (i * 3 + 0, i * 3 + 1, i * 3 + 2),
      (vertexEdges (below val iso) W H D).map (hash W H D)⟩ := by
  unfold gpuRaw
  generalize hn : (D - 1) * (H - 1) * (W - 1) = n
  have hn0 : 0 < n := by rw [← hn]; exact Nat.mul_pos (Nat.mul_pos (by omega) (by omega)) (by omega)
  generalize hf : (fun t => (row (cubeIndex (below val iso) (voxelAt (W - 1) (H - 1) t))).map
    (fun e => (voxelAt (W - 1) (H - 1) t, e))) = f
  have hve : vertexEdges (below val iso) W H D = ((List.range n).flatMap f).map fun x => cellEdge x.1 x.2 := by
    rw [vertexEdges, cells_eq, hn, List.flatMap_map, List.map_flatMap, ← hf]
    refine Scatter.flatMap_congr' fun t _ => ?_
    rw [List.map_map]; rfl
  have hnv : ∀ t, numVertsTable.getD (gpuCubeIndex (below val iso) (voxelAt (W - 1) (H - 1) t)) 0 = (f t).length := by
    intro t
    rw [gpuCubeIndex_eq, (numVerts_facts (cubeIndex_lt _ _)).1, ← hf, List.length_map]
  have htp := gridFor_perm hn0
  have hem : ∀ vs t, vs.getD t 0 = ((List.range t).map fun s => (f s).length).sum → emit (below val iso) (W - 1) (H - 1) vs t
      = (List.range (f t).length).map fun i => (((List.range t).map fun s => (f s).length).sum + i, (f t).getD i ((0, 0, 0), 0)) := by
    intro vs t ht
    unfold emit
    simp only []
    rw [gpuCubeIndex_eq, (numVerts_facts (cubeIndex_lt _ _)).1, ht, ← hf, List.length_map]
    apply List.map_congr_left
    intro i hi
    rw [List.mem_range] at hi
    rw [(numVerts_facts (cubeIndex_lt _ _)).2 i hi]
    simp [hi]
  simp only [hnv]
  rw [if_neg (by omega)]
  have hvv : writeAll (List.replicate n 0) (sh _ ((Chunks.gridStride (gridFor n) 128 n).map fun t => (t, (f t).length)))
      = some ((List.range n).map fun t => (f t).length) := by
    apply writeAll_perm (by simp)
    rw [← zip_range_map]
    exact (hsh _ _).trans (htp.map _)
  have hocc : writeAll (List.replicate n 0) (sh _ ((Chunks.gridStride (gridFor n) 128 n).map fun t => (t, if (f t).length > 0 then 1 else 0)))
      = some ((List.range n).map fun t => if (f t).length > 0 then 1 else 0) := by
    apply writeAll_perm (by simp)
    rw [← zip_range_map]
    exact (hsh _ _).trans (htp.map _)
  rw [hvv, hocc]
  simp only [Option.bind_eq_bind, Option.bind_some]
  generalize hg : (fun t => if (f t).length > 0 then [t] else []) = g
  have hgl : (fun t => if (f t).length > 0 then 1 else 0) = fun t => (g t).length := by
    funext t; rw [← hg]; simp only []; split <;> rfl
  rw [hgl]
  have hsc : ∀ (q : Nat → Nat) t, t ≤ n → (scan 0 ((List.range n).map q)).getD t 0 = ((List.range t).map q).sum := by
    intro q t ht
    rw [scan_getD _ _ _ (by simpa using ht), Nat.zero_add, ← List.map_take, List.take_range, Nat.min_eq_left ht]
  have hact : (scan 0 ((List.range n).map fun t => (g t).length)).getD n 0 = ((List.range n).flatMap g).length := by
    rw [hsc _ n le_rfl, List.length_flatMap]
  have htot : (scan 0 ((List.range n).map fun t => (f t).length)).getD n 0 = ((List.range n).flatMap f).length := by
    rw [hsc _ n le_rfl, List.length_flatMap]
  rw [hact, htot]
  have hfg : (List.range n).flatMap f = ((List.range n).flatMap g).flatMap f := by
    rw [List.flatMap_assoc]
    refine Scatter.flatMap_congr' fun t _ => ?_
    rw [← hg]
    by_cases h : (f t).length > 0
    · simp [h]
    · have : f t = [] := List.eq_nil_of_length_eq_zero (by omega)
      simp [this]
  by_cases h0 : ((List.range n).flatMap g).length = 0
  · rw [if_pos h0]
    have : vertexEdges (below val iso) W H D = [] := by
      rw [hve, hfg, List.eq_nil_of_length_eq_zero h0]; rfl
    rw [this]; rfl
  rw [if_neg h0]
  have hcomp : writeAll (List.replicate ((List.range n).flatMap g).length 0)
      (sh _ (((Chunks.gridStride (gridFor n) 128 n).filter fun t => decide (((List.range n).map fun t => (g t).length).getD t 0 ≠ 0)).map
        fun t => ((scan 0 ((List.range n).map fun t => (g t).length)).getD t 0, t))) = some ((List.range n).flatMap g) := by
    apply writeAll_perm (by simp)
    rw [← flatMap_offsets g 0]
    refine (hsh _ _).trans (((htp.filter _).map _).trans (List.Perm.of_eq ?_))
    rw [filter_eq_flatMap', List.map_flatMap]
    refine Scatter.flatMap_congr' fun t ht => ?_
    rw [List.mem_range] at ht
    have e : ((List.range n).map fun t => (g t).length).getD t 0 = (g t).length := by simp [ht]
    rw [e]
    by_cases h : (f t).length > 0
    · have hgt : g t = [t] := by rw [← hg]; simp [h]
      have hs := hsc (fun t => (g t).length) t (by omega)
      rw [List.getD_eq_getElem?_getD] at hs
      rw [hgt]
      simpa using hs
    · have hgt : g t = [] := by rw [← hg]; simp [h]
      rw [hgt]; rfl
  rw [hcomp]
  simp only [Option.bind_some]
  -- the emitted stores are those of all cells
  have hes : ((Chunks.gridStride (gridFor ((List.range n).flatMap g).length) 128 ((List.range n).flatMap g).length).flatMap fun t =>
      emit (below val iso) (W - 1) (H - 1) (scan 0 ((List.range n).map fun t => (f t).length)) (((List.range n).flatMap g).getD t 0)).Perm
      ((List.range ((List.range n).flatMap f).length).zip ((List.range n).flatMap f)) := by
    rw [← flatMap_offsets f ((0, 0, 0), 0)]
    refine ((gridFor_perm (by omega)).flatMap_right _).trans (List.Perm.of_eq ?_)
    have e1 : (List.range ((List.range n).flatMap g).length).map (fun t => ((List.range n).flatMap g).getD t 0) = (List.range n).flatMap g := by
      apply List.ext_getElem (by simp)
      intro i h1 h2
      simp only [List.length_map, List.length_range] at h1
      rw [List.getElem_map, List.getElem_range, getD_of_lt _ h1]
    rw [← List.flatMap_map (f := fun t => ((List.range n).flatMap g).getD t 0)
      (g := fun x => emit (below val iso) (W - 1) (H - 1) (scan 0 ((List.range n).map fun t => (f t).length)) x), e1, List.flatMap_assoc]
    refine Scatter.flatMap_congr' fun t ht => ?_
    rw [List.mem_range] at ht
    rw [← hem _ t (hsc _ t (by omega)), ← hg]
    by_cases h : (f t).length > 0
    · simp [h]
    · rw [hem _ t (hsc _ t (by omega))]
      have : (f t).length = 0 := by omega
      simp [this]
  generalize ((Chunks.gridStride (gridFor ((List.range n).flatMap g).length) 128 ((List.range n).flatMap g).length).flatMap fun t =>
      emit (below val iso) (W - 1) (H - 1) (scan 0 ((List.range n).map fun t => (f t).length)) (((List.range n).flatMap g).getD t 0)) = es at hes ⊢
  have hedge : ∀ x ∈ (List.range n).flatMap f, gpuEdge x.1 x.2 = cellEdge x.1 x.2 := by
    intro x hx
    rw [List.mem_flatMap] at hx
    obtain ⟨t, _, hx⟩ := hx
    rw [← hf] at hx
    simp only [List.mem_map] at hx
    obtain ⟨e, he, rfl⟩ := hx
    exact gpuEdge_eq _ (((row_facts (cubeIndex_lt _ _)).2.2.1 e).mp he).1
  generalize (List.range n).flatMap f = F at *
  have hgen : ∀ {β : Type} (b : β) (q q' : P × Nat → β), (∀ x ∈ F, q x = q' x) →
      writeAll (List.replicate F.length b) (sh _ (es.map fun x => (x.1, q (x.2.1, x.2.2)))) = some (F.map q') := by
    intro β b q q' hq
    apply writeAll_perm (by simp)
    refine (hsh _ _).trans ((hes.map _).trans (List.Perm.of_eq ?_))
    apply List.ext_getElem (by simp)
    intro i h1 h2
    simp [hq]
  have hfaces : writeAll (List.replicate (F.length / 3) (0, 0, 0))
      (sh _ ((es.filter fun x => decide (x.1 < F.length / 3)).map fun x => (x.1, x.1 * 3 + 0, x.1 * 3 + 1, x.1 * 3 + 2)))
      = some ((List.range (F.length / 3)).map fun i => (i * 3 + 0, i * 3 + 1, i * 3 + 2)) := by
    apply writeAll_perm (by simp)
    rw [← zip_range_map]
    refine (hsh _ _).trans (((hes.filter _).map _).trans (List.Perm.of_eq ?_))
    have e : ((List.range F.length).zip F).filter (fun x => decide (x.1 < F.length / 3))
        = (List.range (F.length / 3)).zip (F.take (F.length / 3)) := by
      have hsplit : (List.range F.length).zip F = (List.range (F.length / 3)).zip (F.take (F.length / 3))
          ++ ((List.range (F.length - F.length / 3)).map (F.length / 3 + ·)).zip (F.drop (F.length / 3)) := by
        rw [← List.zip_append (by simp; omega), ← List.range_add, List.take_append_drop,
          Nat.add_sub_cancel' (Nat.div_le_self _ _)]
      rw [hsplit, List.filter_append, List.filter_eq_self.mpr, List.filter_eq_nil_iff.mpr, List.append_nil]
      · intro x hx
        have := (List.of_mem_zip hx).1
        rw [List.mem_map] at this
        obtain ⟨j, _, hj⟩ := this
        simp only [decide_eq_true_eq]; omega
      · intro x hx
        have := (List.of_mem_zip hx).1
        rw [List.mem_range] at this
        simp only [decide_eq_true_eq]; omega
    rw [e]
    have e2 : ((List.range (F.length / 3)).zip (F.take (F.length / 3))).map Prod.fst = List.range (F.length / 3) :=
      List.map_fst_zip (by simp; omega)
    conv_rhs => rw [← e2, List.map_map]
    rfl
  rw [hgen 0 (fun x => interp val iso (gpuEdge x.1 x.2)) (fun x => interp val iso (cellEdge x.1 x.2))
    (fun x hx => by rw [hedge x hx])]
  simp only [Option.bind_some]
  rw [hfaces]
  simp only [Option.bind_some]
  rw [hgen 0 (fun x => hash W H D (cellEdge x.1 x.2)) (fun x => hash W H D (cellEdge x.1 x.2)) (fun x hx => rfl)]
  simp only [Option.bind_some]
  rw [hve, List.length_map, List.map_map, List.map_map]
  rfl

/-- A volume without cells makes the launch fail (the CPU returns an empty mesh). -/
theorem gpuRaw_none (val : P → K) (iso : K) {W H D : Nat} (h : W ≤ 1 ∨ H ≤ 1 ∨ D ≤ 1) : gpuRaw sh val iso W H D = none := by
  unfold gpuRaw
  rw [if_pos]
  rcases h with h | h | h
  · rw [show W - 1 = 0 by omega, Nat.mul_zero]
  · rw [show H - 1 = 0 by omega, Nat.mul_zero, Nat.zero_mul]
  · rw [show D - 1 = 0 by omega, Nat.zero_mul, Nat.zero_mul]

/-! ### Removal of duplicates -/

omit hsh in
theorem mem_uniqueNat {l : List Nat} {x : Nat} : x ∈ uniqueNat l ↔ x ∈ l := by simp [uniqueNat]

omit hsh in
theorem nodup_uniqueNat (l : List Nat) : (uniqueNat l).Nodup :=
  (List.perm_insertionSort (· ≤ ·) l.dedup).symm.nodup (List.nodup_dedup l)

/-- Vertices with the same id are merged, and nothing else. -/
theorem dedup_spec {f : Key → V3 K} {h : Key → Nat} {ks : List Key} (hinj : ∀ a ∈ ks, ∀ b ∈ ks, h a = h b → a = b)
    (h3 : ks.length % 3 = 0) :
    ∃ u : List Key, u.Nodup ∧ (∀ k, k ∈ u ↔ k ∈ ks) ∧
      dedupMesh sh ⟨ks.map f, (List.range (ks.length / 3)).map fun i => (i * 3 + 0, i * 3 + 1, i * 3 + 2), ks.map h⟩
        = some (u.map f, (triples ks).map fun t => (u.idx t.1, u.idx t.2.1, u.idx t.2.2)) := by
  classical
  obtain ⟨g, hg⟩ : ∃ g : Nat → Key, ∀ k ∈ ks, g (h k) = k := by
    refine ⟨fun n => if hn : ∃ k ∈ ks, h k = n then hn.choose else ((0, 0, 0), (0, 0, 0)), fun k hk => ?_⟩
    have hn : ∃ k' ∈ ks, h k' = h k := ⟨k, hk, rfl⟩
    simp only [dif_pos hn]
    exact hinj _ hn.choose_spec.1 k hk hn.choose_spec.2
  have hU : ∀ n, n ∈ uniqueNat (ks.map h) ↔ ∃ k ∈ ks, h k = n := fun n => by rw [mem_uniqueNat, List.mem_map]
  have hgU : ∀ n ∈ uniqueNat (ks.map h), g n ∈ ks ∧ h (g n) = n := by
    intro n hn
    obtain ⟨k, hk, rfl⟩ := (hU n).mp hn
    rw [hg k hk]; exact ⟨hk, rfl⟩
  obtain ⟨u, hu⟩ : ∃ u, (uniqueNat (ks.map h)).map g = u := ⟨_, rfl⟩
  have hul : (uniqueNat (ks.map h)).length = u.length := by rw [← hu, List.length_map]
  have hmem : ∀ k, k ∈ u ↔ k ∈ ks := by
    intro k; rw [← hu, List.mem_map]
    constructor
    · rintro ⟨n, hn, rfl⟩; exact (hgU n hn).1
    · intro hk; exact ⟨h k, (hU _).mpr ⟨k, hk, rfl⟩, hg k hk⟩
  have hnd : u.Nodup := by
    rw [← hu]
    refine List.Nodup.map_on ?_ (nodup_uniqueNat _)
    intro x hx y hy e
    rw [← (hgU x hx).2, ← (hgU y hy).2, e]
  have hidx : ∀ k ∈ ks, (uniqueNat (ks.map h)).idx (h k) = u.idx k := by
    intro k hk
    have hm := (hU (h k)).mpr ⟨k, hk, rfl⟩
    have l1 := idx_lt hm
    have e1 := getElem_idx hm
    have l2 : (uniqueNat (ks.map h)).idx (h k) < u.length := by rw [← hul]; exact l1
    have e2 : u[(uniqueNat (ks.map h)).idx (h k)] = k := by
      rw [List.getElem?_eq_getElem l1, Option.some.injEq] at e1
      simp only [← hu, List.getElem_map, e1, hg k hk]
    have := idx_getElem hnd l2
    rw [e2] at this
    exact this.symm
  refine ⟨u, hnd, hmem, ?_⟩
  · unfold dedupMesh
    simp only [List.map_map]
    have hmap : ks.map ((uniqueNat (ks.map h)).idx ∘ h) = ks.map u.idx := List.map_congr_left fun k hk => hidx k hk
    rw [hmap]
    have hz : (ks.map u.idx).zip (ks.map f) = ks.map fun k => (u.idx k, f k) := by rw [List.zip_map']
    rw [hz]
    obtain ⟨out, h1, h2, h4⟩ := writeAll_fn (buf := List.replicate (uniqueNat (ks.map h)).length (0 : V3 K))
      (fun i => (u.map f).getD i 0) (ws := sh _ (ks.map fun k => (u.idx k, f k))) (by
        intro w hw
        rw [(hsh _ _).mem_iff, List.mem_map] at hw
        obtain ⟨k, hk, rfl⟩ := hw
        have hk' := (hmem k).mpr hk
        have hl := idx_lt hk'
        refine ⟨by rw [List.length_replicate, hul]; exact hl, ?_⟩
        have e := getElem_idx hk'
        rw [List.getD_eq_getElem?_getD, List.getElem?_map, e]; rfl)
    rw [h1, Option.map_some]
    congr 2
    · apply List.ext_getElem? fun i => ?_
      rw [h4]
      by_cases hi : i < u.length
      · rw [if_pos, List.getD_eq_getElem?_getD, List.getElem?_eq_getElem (by simpa using hi)]; · rfl
        rw [((hsh _ _).map _).mem_iff, List.map_map, List.mem_map]
        exact ⟨u[i], (hmem _).mp (List.getElem_mem hi), idx_getElem hnd hi⟩
      · rw [if_neg, List.getElem?_eq_none (by simp [hul]; omega), List.getElem?_eq_none (by simp; omega)]
        rw [((hsh _ _).map _).mem_iff, List.map_map, List.mem_map]
        rintro ⟨k, hk, rfl⟩
        exact hi (idx_lt ((hmem k).mpr hk))
    · rw [triples_eq_range ((0, 0, 0), (0, 0, 0)) ks, List.map_map]
      apply List.map_congr_left
      intro i hi
      rw [List.mem_range] at hi
      have e : ∀ j, j < ks.length → (ks.map u.idx).getD j 0 = u.idx (ks.getD j ((0, 0, 0), (0, 0, 0))) := by
        intro j hj
        rw [getD_of_lt _ (by simpa using hj), getD_of_lt _ hj, List.getElem_map]
      simp only [Function.comp]
      rw [e _ (by omega), e _ (by omega), e _ (by omega)]

/-- `marching_cubes` on CUDA for one volume, in grid coordinates (ops/marching_cubes.py:284-300). -/
def marchingCubesGpu (sh sh' : ∀ α : Type, List α → List α) (val : P → K) (iso : K) (W H D : Nat) :
    Option (List (V3 K) × List (Nat × Nat × Nat)) :=
  (gpuRaw sh val iso W H D).bind (dedupMesh sh')

/-- **C41 (CUDA).** For every volume and iso level, whatever the order of the stores, the result is the mesh of all triangles, none
dropped: each directed edge occurs at most once, and it is closed if the border is on one side. -/
theorem gpu_spec {sh' : ∀ α : Type, List α → List α} (hsh' : ∀ (α : Type) (l : List α), (sh' α l).Perm l)
    (val : P → K) (iso : K) {W H D : Nat} (hW : 2 ≤ W) (hH : 2 ≤ H) (hD : 2 ≤ D) :
    ∃ m, marchingCubesGpu sh sh' val iso W H D = some m ∧ IsMeshOf val iso (soup (below val iso) W H D) m
      ∧ (dirEdges m.2).Nodup
      ∧ ∀ s : Bool, (∀ p : P, (∃ ax < 3, comp ax p = 0 ∨ comp ax p = size W H D ax - 1) → below val iso p = s) → IsClosed m.2 := by
  have hv : ∀ k, k ∈ vertexEdges (below val iso) W H D ↔ IsVertex (soup (below val iso) W H D) k := by
    intro k
    rw [soup_eq_triples]
    constructor
    · exact triples_cover _ (length_vertexEdges_mod _ _ _ _) k
    · rintro ⟨t, ht, h⟩
      obtain ⟨h1, h2, h3⟩ := mem_triples _ _ ht
      rcases h with rfl | rfl | rfl <;> assumption
  obtain ⟨u, u1, u2, u3⟩ := dedup_spec sh' hsh' (f := interp val iso) (h := hash W H D) (ks := vertexEdges (below val iso) W H D) (by
    intro a ha b hb e
    have ga := vertex_in_grid ((hv a).mp ha)
    have gb := vertex_in_grid ((hv b).mp hb)
    exact hash_inj ⟨ga.1, ga.2.1⟩ ⟨gb.1, gb.2.1⟩ e) (length_vertexEdges_mod _ _ _ _)
  have hm : IsMeshOf val iso (soup (below val iso) W H D) (u.map (interp val iso),
      (triples (vertexEdges (below val iso) W H D)).map fun t => (u.idx t.1, u.idx t.2.1, u.idx t.2.2)) :=
    ⟨u, u1, fun k => (u2 k).trans (hv k), rfl, by rw [soup_eq_triples]⟩
  exact ⟨_, by rw [marchingCubesGpu, gpuRaw_spec sh hsh val iso hW hH hD, Option.bind_some, u3], hm,
    (mesh_props hm).2.2.2.1 (soup_nodup _ _ _ _), fun s hb => (mesh_props hm).2.2.2.2 (soup_closed s hb).1⟩

omit hsh

/-! ### Local coordinates -/

section localCoords
open P3D.T3d

/-- The transform of ops/marching_cubes.py:290-292 (and 222-224). -/
noncomputable def localTransform (W H D : Nat) : Except T3d.Err (T3 K) := do
  let t ← translate .f32 (.scalar 1) (.scalar 1) (.scalar 1)
  let s ← scale .f32 (.mat 3 [[((W : K) - 1) * (1 / 2), ((H : K) - 1) * (1 / 2), ((D : K) - 1) * (1 / 2)]]) .none .none
  inverse (compose t [s])

/-- Conversion of the vertices (ops/marching_cubes.py:289-293): `transform_points(verts[None])[0]`. -/
noncomputable def toLocal (W H D : Nat) (verts : List (V3 K)) : Except T3d.Err (List (V3 K)) := do
  let t ← localTransform W H D
  let q ← transformPoints t none (.batch [verts])
  .ok (q.toBatch.headD [])

/-- **C41 (local coordinates).** The grid `[0, W - 1] × [0, H - 1] × [0, D - 1]` is mapped onto `[-1, 1]³`. -/
theorem toLocal_spec {W H D : Nat} (hW : 2 ≤ W) (hH : 2 ≤ H) (hD : 2 ≤ D) (verts : List (V3 K)) :
    toLocal W H D verts = .ok (verts.map fun p =>
      ⟨2 * p.x / ((W : K) - 1) - 1, 2 * p.y / ((H : K) - 1) - 1, 2 * p.z / ((D : K) - 1) - 1⟩) := by
  have pos : ∀ n : Nat, 2 ≤ n → ((n : K) - 1) ≠ 0 := by
    intro n hn
    have : (1 : K) < n := by exact_mod_cast hn
    exact ne_of_gt (by linarith)
  have h2 : (2 : K) ≠ 0 := by norm_num
  generalize hw : (W : K) - 1 = w
  generalize hh : (H : K) - 1 = h
  generalize hd : (D : K) - 1 = d
  have w0 : w ≠ 0 := hw ▸ pos W hW
  have h0 : h ≠ 0 := hh ▸ pos H hH
  have d0 : d ≠ 0 := hd ▸ pos D hD
  unfold toLocal localTransform
  rw [hw, hh, hd]
  have ht : (translate .f32 (.scalar 1) (.scalar 1) (.scalar 1) : Except T3d.Err (T3 K)) = .ok (.mk .translate .f32 [translateMat ⟨1, 1, 1⟩] []) := rfl
  have hs : (scale .f32 (.mat 3 [[w * (1 / 2), h * (1 / 2), d * (1 / 2)]]) .none .none : Except T3d.Err (T3 K))
      = .ok (.mk .scale .f32 [scaleMat ⟨w * (1 / 2), h * (1 / 2), d * (1 / 2)⟩] []) := rfl
  rw [ht, hs]
  have hc : compose (.mk .translate .f32 [translateMat (⟨1, 1, 1⟩ : V3 K)] [])
      [.mk .scale .f32 [scaleMat ⟨w * (1 / 2), h * (1 / 2), d * (1 / 2)⟩] []]
      = .mk .base .f32 [translateMat ⟨1, 1, 1⟩] [.mk .scale .f32 [scaleMat ⟨w * (1 / 2), h * (1 / 2), d * (1 / 2)⟩] []] := rfl
  have hTi : translateMat (⟨1, 1, 1⟩ : V3 K) * translateMat (-⟨1, 1, 1⟩) = 1 := by
    unfold translateMat
    rw [affine_mul, ← affine_one]
    congr 1 <;> ext <;> simp [M3.vecMul, M3.mul_def]
  have hok : Ok (.mk .base .f32 [translateMat (⟨1, 1, 1⟩ : V3 K)] [.mk .scale .f32 [scaleMat ⟨w * (1 / 2), h * (1 / 2), d * (1 / 2)⟩] []]) := by
    rw [Ok, Oks, Ok, Oks]
    refine ⟨fun x hx => ?_, ⟨fun x hx => ?_, trivial⟩, trivial⟩
    · rw [List.mem_singleton] at hx
      subst hx
      intro hz
      have := congrArg Matrix.det hTi
      rw [Matrix.det_mul, hz, zero_mul, Matrix.det_one] at this
      exact zero_ne_one this
    · rw [List.mem_singleton] at hx
      exact ⟨⟨w * (1 / 2), h * (1 / 2), d * (1 / 2)⟩, by simp [w0], by simp [h0], by simp [d0], hx⟩
  have hgm : getMatrix (.mk .base .f32 [translateMat (⟨1, 1, 1⟩ : V3 K)] [.mk .scale .f32 [scaleMat ⟨w * (1 / 2), h * (1 / 2), d * (1 / 2)⟩] []])
      = some [translateMat ⟨1, 1, 1⟩ * scaleMat ⟨w * (1 / 2), h * (1 / 2), d * (1 / 2)⟩] := by
    rw [getMatrix, composeAll, getMatrix, composeAll]
    simp only [Option.bind_some, composeAll]
    rfl
  obtain ⟨it, i1, i2⟩ := inverse_spec _ hok
  have hinv : (translateMat (⟨1, 1, 1⟩ : V3 K) * scaleMat ⟨w * (1 / 2), h * (1 / 2), d * (1 / 2)⟩)⁻¹
      = M4.affine ⟨2 / w, 0, 0, 0, 2 / h, 0, 0, 0, 2 / d⟩ (-⟨1, 1, 1⟩) := by
    apply inv_eq
    unfold translateMat scaleMat
    rw [affine_mul, affine_mul, ← affine_one]
    congr 1
    · ext <;> simp [M3.mul_def] <;> field_simp
    · ext <;> simp [M3.vecMul] <;> field_simp <;> ring
  have i3 : getMatrix it = some [M4.affine ⟨2 / w, 0, 0, 0, 2 / h, 0, 0, 0, 2 / d⟩ (-⟨1, 1, 1⟩)] := by
    rw [← hinv]
    have hm : matB (.mk .base .f32 [translateMat (⟨1, 1, 1⟩ : V3 K)] [.mk .scale .f32 [scaleMat ⟨w * (1 / 2), h * (1 / 2), d * (1 / 2)⟩] []])
      = (some [translateMat ⟨1, 1, 1⟩ * scaleMat ⟨w * (1 / 2), h * (1 / 2), d * (1 / 2)⟩] : B K) := hgm
    rw [hm] at i2
    exact i2
  simp only [bind, Except.bind, hc, i1]
  have hp : transformPoints it none (.batch [verts])
      = .ok (.batch [verts.map fun p => transformPoint none p (M4.affine ⟨2 / w, 0, 0, 0, 2 / h, 0, 0, 0, 2 / d⟩ (-⟨1, 1, 1⟩))]) := by
    unfold transformPoints
    rw [i3]
    rfl
  rw [hp]
  show Except.ok (verts.map _) = _
  congr 1
  apply List.map_congr_left
  intro p _
  rw [transformPoint_affine]
  ext <;> simp [M3.vecMul] <;> ring

/-- The local coordinates of points of the grid box lie in `[-1, 1]³`. -/
theorem local_range {n : Nat} (hn : 2 ≤ n) {x : K} (h0 : 0 ≤ x) (h1 : x ≤ (n : K) - 1) :
    -1 ≤ 2 * x / ((n : K) - 1) - 1 ∧ 2 * x / ((n : K) - 1) - 1 ≤ 1 := by
  have hn' : (0 : K) < (n : K) - 1 := by
    have : (1 : K) < n := by exact_mod_cast hn
    linarith
  constructor
  · have : 0 ≤ 2 * x / ((n : K) - 1) := div_nonneg (by linarith) hn'.le
    linarith
  · have : 2 * x / ((n : K) - 1) ≤ 2 := by rw [div_le_iff₀ hn']; linarith
    linarith

example : toLocal 3 5 2 [(⟨1, 1, 1⟩ : V3 ℚ), ⟨0, 4, 1 / 2⟩] = .ok [⟨0, -1 / 2, 1⟩, ⟨-1, 1, 0⟩] := by
  rw [toLocal_spec (by decide) (by decide) (by decide)]
  norm_num

end localCoords

/-! ### The iso level -/

/-- `thresh` (ops/marching_cubes.py:283): `v :: vs` are the values of the volume. -/
def thresh (v : K) (vs : List K) : Option K → K
  | some l => l
  | none => ((vs.foldl max v) + (vs.foldl min v)) / 2

theorem le_foldl_max : ∀ (vs : List K) (v x : K), x = v ∨ x ∈ vs → x ≤ vs.foldl max v
  | [], v, x, h => by simpa using h.elim le_of_eq (fun h => by simp at h)
  | a :: vs, v, x, h => by
    rw [List.foldl_cons]
    rcases h with rfl | h
    · exact (le_max_left x a).trans (le_foldl_max vs _ _ (Or.inl rfl))
    · rcases List.mem_cons.mp h with rfl | h
      · exact (le_max_right v x).trans (le_foldl_max vs _ _ (Or.inl rfl))
      · exact le_foldl_max vs _ _ (Or.inr h)

theorem foldl_min_le : ∀ (vs : List K) (v x : K), x = v ∨ x ∈ vs → vs.foldl min v ≤ x
  | [], v, x, h => by simpa using h.elim (fun h => le_of_eq h.symm) (fun h => by simp at h)
  | a :: vs, v, x, h => by
    rw [List.foldl_cons]
    rcases h with rfl | h
    · exact (foldl_min_le vs _ _ (Or.inl rfl)).trans (min_le_left x a)
    · rcases List.mem_cons.mp h with rfl | h
      · exact (foldl_min_le vs _ _ (Or.inl rfl)).trans (min_le_right v x)
      · exact foldl_min_le vs _ _ (Or.inr h)

theorem foldl_max_mem : ∀ (vs : List K) (v : K), vs.foldl max v = v ∨ vs.foldl max v ∈ vs
  | [], v => Or.inl rfl
  | a :: vs, v => by
    rw [List.foldl_cons]
    rcases foldl_max_mem vs (max v a) with h | h
    · rcases max_choice v a with e | e
      · exact Or.inl (h.trans e)
      · right; rw [h, e]; simp
    · exact Or.inr (List.mem_cons_of_mem _ h)

theorem foldl_min_mem : ∀ (vs : List K) (v : K), vs.foldl min v = v ∨ vs.foldl min v ∈ vs
  | [], v => Or.inl rfl
  | a :: vs, v => by
    rw [List.foldl_cons]
    rcases foldl_min_mem vs (min v a) with h | h
    · rcases min_choice v a with e | e
      · exact Or.inl (h.trans e)
      · right; rw [h, e]; simp
    · exact Or.inr (List.mem_cons_of_mem _ h)

/-- Grid points of the volume. -/
def InGrid (W H D : Nat) (p : P) : Prop := p.1 < W ∧ p.2.1 < H ∧ p.2.2 < D

/-- There is no triangle exactly if all grid points are on the same side. -/
theorem soup_nil_iff (below : P → Bool) {W H D : Nat} (hW : 2 ≤ W) (hH : 2 ≤ H) (hD : 2 ≤ D) :
    soup below W H D = [] ↔ ∀ p q, InGrid W H D p → InGrid W H D q → below p = below q := by
  constructor
  · intro h
    have he : ∀ k : Key, GridEdge W H D k → below k.1 = below k.2 := by
      intro k hk
      by_contra hne
      obtain ⟨t, ht, _⟩ := (soup_vertices (below := below) hW hH hD).mpr ⟨hk, hne⟩
      rw [h] at ht; simp at ht
    have hx : ∀ x y z, InGrid W H D (x, y, z) → below (x, y, z) = below (0, y, z) := by
      intro x y z
      induction x with
      | zero => intro _; rfl
      | succ x ih =>
        intro hp
        simp only [InGrid] at hp ih
        rw [← ih ⟨by omega, hp.2.1, hp.2.2⟩]
        exact (he ((x, y, z), (x + 1, y, z)) (by
          refine ⟨0, by decide, ?_⟩
          simp [padd, unit, setc]; omega)).symm
    have hy : ∀ y z, InGrid W H D (0, y, z) → below (0, y, z) = below (0, 0, z) := by
      intro y z
      induction y with
      | zero => intro _; rfl
      | succ y ih =>
        intro hp
        simp only [InGrid] at hp ih
        rw [← ih ⟨hp.1, by omega, hp.2.2⟩]
        exact (he ((0, y, z), (0, y + 1, z)) (by
          refine ⟨1, by decide, ?_⟩
          simp [padd, unit, setc]; omega)).symm
    have hz : ∀ z, InGrid W H D (0, 0, z) → below (0, 0, z) = below (0, 0, 0) := by
      intro z
      induction z with
      | zero => intro _; rfl
      | succ z ih =>
        intro hp
        simp only [InGrid] at hp ih
        rw [← ih ⟨hp.1, hp.2.1, by omega⟩]
        exact (he ((0, 0, z), (0, 0, z + 1)) (by
          refine ⟨2, by decide, ?_⟩
          simp [padd, unit, setc]; omega)).symm
    have h0 : ∀ p, InGrid W H D p → below p = below (0, 0, 0) := by
      rintro ⟨x, y, z⟩ hp
      have hp' := hp
      simp only [InGrid] at hp'
      rw [hx x y z hp, hy y z (by simp only [InGrid]; omega), hz z (by simp only [InGrid]; omega)]
    intro p q hp hq
    rw [h0 p hp, h0 q hq]
  · intro h
    by_contra hne
    obtain ⟨t, ht⟩ := List.exists_mem_of_ne_nil _ hne
    have hv : IsVertex (soup below W H D) t.1 := ⟨t, ht, Or.inl rfl⟩
    have hg := vertex_in_grid hv
    have hd := ((soup_vertices hW hH hD).mp hv).2
    exact hd (h _ _ hg.1 hg.2.1)

/-- **C41 (default iso level).** With `isolevel=None` there is no triangle exactly if the volume is constant. -/
theorem default_iso {val : P → K} {W H D : Nat} (hW : 2 ≤ W) (hH : 2 ≤ H) (hD : 2 ≤ D) {v : K} {vs : List K}
    (hvs : ∀ x, x = v ∨ x ∈ vs ↔ ∃ p, InGrid W H D p ∧ val p = x) :
    soup (below val (thresh v vs none)) W H D = [] ↔ ∀ p q, InGrid W H D p → InGrid W H D q → val p = val q := by
  rw [soup_nil_iff _ hW hH hD]
  obtain ⟨pM, gM, eM⟩ := (hvs _).mp (foldl_max_mem vs v)
  obtain ⟨pm, gm, em⟩ := (hvs _).mp (foldl_min_mem vs v)
  constructor
  · intro h p q hp hq
    have hb := h pM pm gM gm
    have h1 := fun r hr => le_foldl_max vs v (val r) ((hvs _).mpr ⟨r, hr, rfl⟩)
    have h2 := fun r hr => foldl_min_le vs v (val r) ((hvs _).mpr ⟨r, hr, rfl⟩)
    simp only [below, thresh, eM, em, decide_eq_decide] at hb
    have hle : vs.foldl max v ≤ vs.foldl min v := by
      by_contra hlt
      push Not at hlt
      have hx : vs.foldl min v < (vs.foldl max v + vs.foldl min v) / 2 := by linarith
      have := hb.mpr hx
      linarith
    have a1 := h1 p hp; have a2 := h2 p hp; have a3 := h1 q hq; have a4 := h2 q hq
    linarith
  · intro h p q hp hq
    simp only [below, h p q hp hq]

example : thresh (3 : ℚ) [1, 7, 2] none = 4 := by decide +kernel

/-- The octahedron again, from the kernels (stores executed in reverse order): no vertex twice. -/
example : ((marchingCubesGpu (fun _ l => l.reverse) (fun _ l => l) octaVal 0 3 3 3).map fun m => (m.1.length, m.2.length)) = some (6, 8)
    ∧ ((gpuRaw (fun _ l => l.reverse) octaVal 0 3 3 3).map fun r => (r.verts.length, r.faces.length)) = some (24, 8) := by
  decide +kernel

/-- Where the C++ code leaves holes, the kernels keep all triangles. -/
example : ((marchingCubesGpu (fun _ l => l) (fun _ l => l.reverse) holeVal 0 4 3 3).map fun m => (m.1.length, m.2.length)) = some (10, 16) := by
  decide +kernel

end P3D.Marching
