/-
How the CUDA kernels distribute work: grid-stride loops and the chunked loops over clouds.

`for (i = tid; i < total; i += stride)` with `tid = blockIdx.x * blockDim.x + threadIdx.x` and
`stride = gridDim.x * blockDim.x` occurs e.g. in `knn.cu:482-485`, `face_areas_normals.cu:25-28`,
`rasterize_points.cu:99-102`, `rasterize_meshes.cu:263-266`, `point_mesh_cuda.cu:238-241`,
`interp_face_attrs.cu:22-25`, `iou_box3d.cu:32-35`, `marching_cubes.cu:180-183`,
`sigmoid_alpha_blend.cu:31-34`; the chunked form in `knn.cu:41-49` (also `:85`, `:151`, `:222`),
`ball_query.cu:40-51` and `points_to_volumes.cu:53-62`.

Threads run in any order; what is modelled is the list of work items each thread visits.
-/
import Mathlib.Data.List.Nodup
import Mathlib.Data.List.Perm.Basic
import Mathlib.Data.List.FinRange
import Mathlib.Data.List.Range
import Mathlib.Data.Nat.Basic

namespace P3D.Chunks

/-- The values taken by `i` in `for (i = start; i < total; i += stride)` (a zero stride would not
terminate and does not occur). -/
def strideLoop (i stride total : Nat) : List Nat :=
  if i < total ∧ 0 < stride then i :: strideLoop (i + stride) stride total else []
termination_by total - i

/-- All threads of a grid-stride loop: block `b < grid`, thread `t < block`. -/
def gridStride (grid block total : Nat) : List Nat :=
  (List.range grid).flatMap (fun b => (List.range block).flatMap (fun t =>
    strideLoop (b * block + t) (grid * block) total))

/-- Number of chunks of one cloud, `1 + (P1 - 1) / blockDim.x` (`knn.cu:42`, in unsigned
arithmetic, so `P1 ≥ 1` is assumed: the host code returns early for empty outputs). -/
def chunksPerCloud (block P : Nat) : Nat := 1 + (P - 1) / block

/-- `knn.cu:41-49`: the (cloud, point) pairs visited by all threads; `lengths n` is the number of
valid points of cloud `n`. -/
def chunked (grid block N P : Nat) (lengths : Nat → Nat) : List (Nat × Nat) :=
  (List.range grid).flatMap (fun b => (List.range block).flatMap (fun t =>
    (strideLoop b grid (N * chunksPerCloud block P)).filterMap (fun chunk =>
      let n := chunk / chunksPerCloud block P
      let p := block * (chunk % chunksPerCloud block P) + t
      if p ≥ lengths n then none else some (n, p))))

/-! ## Every item exactly once -/

theorem mem_strideLoop {i stride total x : Nat} (hs : 0 < stride) :
    x ∈ strideLoop i stride total ↔ i ≤ x ∧ x < total ∧ (x - i) % stride = 0 := by
  induction h : total - i using Nat.strong_induction_on generalizing i with
  | _ n ih =>
    rw [strideLoop]
    by_cases hi : i < total
    · rw [if_pos ⟨hi, hs⟩, List.mem_cons, ih (total - (i + stride)) (by omega) rfl]
      constructor
      · rintro (rfl | ⟨h1, h2, h3⟩)
        · simp [hi]
        · refine ⟨by omega, h2, ?_⟩
          have : x - i = (x - (i + stride)) + stride := by omega
          rw [this, Nat.add_mod_right]; exact h3
      · rintro ⟨h1, h2, h3⟩
        by_cases hx : x = i
        · exact Or.inl hx
        · right
          have hd : stride ≤ x - i := Nat.le_of_dvd (by omega) (Nat.dvd_of_mod_eq_zero h3)
          refine ⟨by omega, h2, ?_⟩
          have : x - i = (x - (i + stride)) + stride := by omega
          rw [this, Nat.add_mod_right] at h3; exact h3
    · rw [if_neg (by omega)]
      simp only [List.not_mem_nil, false_iff]
      omega

theorem nodup_strideLoop (i stride total : Nat) (hs : 0 < stride) :
    (strideLoop i stride total).Nodup := by
  induction h : total - i using Nat.strong_induction_on generalizing i with
  | _ n ih =>
    rw [strideLoop]
    by_cases hi : i < total
    · rw [if_pos ⟨hi, hs⟩, List.nodup_cons]
      refine ⟨?_, ih (total - (i + stride)) (by omega) (i + stride) rfl⟩
      rw [mem_strideLoop hs]
      omega
    · rw [if_neg (by omega)]; exact List.nodup_nil

theorem pairwise_strideLoop (i stride total : Nat) (hs : 0 < stride) :
    (strideLoop i stride total).Pairwise (· < ·) := by
  induction h : total - i using Nat.strong_induction_on generalizing i with
  | _ n ih =>
    rw [strideLoop]
    by_cases hi : i < total
    · rw [if_pos ⟨hi, hs⟩, List.pairwise_cons]
      refine ⟨?_, ih (total - (i + stride)) (by omega) (i + stride) rfl⟩
      intro x hx
      rw [mem_strideLoop hs] at hx
      omega
    · rw [if_neg (by omega)]; exact List.Pairwise.nil

/-- Starting below the stride, the loop visits the residue class of `i`. -/
theorem mem_strideLoop_lt {i stride total x : Nat} (hi : i < stride) :
    x ∈ strideLoop i stride total ↔ x < total ∧ x % stride = i := by
  rw [mem_strideLoop (by omega)]
  constructor
  · rintro ⟨h1, h2, h3⟩
    refine ⟨h2, ?_⟩
    obtain ⟨k, hk⟩ := Nat.dvd_of_mod_eq_zero h3
    have : x = i + stride * k := by omega
    rw [this, Nat.add_mul_mod_self_left, Nat.mod_eq_of_lt hi]
  · rintro ⟨h1, h2⟩
    have h := Nat.mod_add_div x stride
    rw [h2] at h
    refine ⟨by omega, h1, ?_⟩
    have : x - i = stride * (x / stride) := by omega
    rw [this, Nat.mul_mod_right]

/-- **C46 (grid-stride loops).** Whatever the launch configuration, the threads together visit every
index below `total` exactly once. -/
theorem gridStride_perm {grid block : Nat} (hg : 0 < grid) (hb : 0 < block) (total : Nat) :
    (gridStride grid block total).Perm (List.range total) := by
  have hs : 0 < grid * block := Nat.mul_pos hg hb
  have hlt : ∀ b < grid, ∀ t < block, b * block + t < grid * block := by
    intro b hb t ht
    calc b * block + t < b * block + block := by omega
      _ = (b + 1) * block := by rw [Nat.add_mul, Nat.one_mul]
      _ ≤ grid * block := Nat.mul_le_mul_right _ hb
  rw [List.perm_ext_iff_of_nodup _ List.nodup_range]
  · intro x
    simp only [gridStride, List.mem_flatMap, List.mem_range]
    constructor
    · rintro ⟨b, hb, t, ht, hx⟩
      exact ((mem_strideLoop_lt (hlt b hb t ht)).mp hx).1
    · intro hx
      have h1 : x % (grid * block) < grid * block := Nat.mod_lt _ hs
      set y := x % (grid * block) with hy
      have h2 : y / block < grid := Nat.div_lt_of_lt_mul (by rwa [Nat.mul_comm] at h1)
      refine ⟨y / block, h2, y % block, Nat.mod_lt _ hb, ?_⟩
      rw [mem_strideLoop_lt (hlt _ h2 _ (Nat.mod_lt _ hb))]
      exact ⟨hx, by rw [Nat.mul_comm (y / block), Nat.div_add_mod]⟩
  · rw [gridStride, List.nodup_flatMap]
    refine ⟨?_, ?_⟩
    · intro b hb
      rw [List.mem_range] at hb
      rw [List.nodup_flatMap]
      refine ⟨fun t _ => nodup_strideLoop _ _ _ hs, ?_⟩
      refine List.nodup_range.pairwise_of_forall_ne ?_
      intro t ht t' ht' hne
      rw [List.mem_range] at ht ht'
      rw [Function.onFun, List.disjoint_left]
      intro x hx hx'
      rw [mem_strideLoop_lt (hlt b hb t ht)] at hx
      rw [mem_strideLoop_lt (hlt b hb t' ht')] at hx'
      omega
    · refine List.nodup_range.pairwise_of_forall_ne ?_
      intro b hb b' hb' hne
      rw [List.mem_range] at hb hb'
      rw [Function.onFun, List.disjoint_left]
      intro x hx hx'
      simp only [List.mem_flatMap, List.mem_range] at hx hx'
      obtain ⟨t, ht, hx⟩ := hx
      obtain ⟨t', ht', hx'⟩ := hx'
      rw [mem_strideLoop_lt (hlt b hb t ht)] at hx
      rw [mem_strideLoop_lt (hlt b' hb' t' ht')] at hx'
      have h : b * block + t = b' * block + t' := by omega
      have h1 : (b * block + t) / block = (b' * block + t') / block := by rw [h]
      rw [Nat.mul_comm b, Nat.mul_comm b', Nat.mul_add_div (by omega), Nat.mul_add_div (by omega),
        Nat.div_eq_of_lt ht, Nat.div_eq_of_lt ht'] at h1
      omega

/-- **C46 (chunked loops).** Whatever the launch configuration, the threads together visit every
valid point of every cloud exactly once, and nothing else. -/
theorem chunked_spec {grid block N P : Nat} (hg : 0 < grid) (hb : 0 < block) (hP : 0 < P)
    (lengths : Nat → Nat) (hl : ∀ n < N, lengths n ≤ P) :
    (chunked grid block N P lengths).Nodup ∧
    ∀ n p, (n, p) ∈ chunked grid block N P lengths ↔ n < N ∧ p < lengths n := by
  set c := chunksPerCloud block P with hc
  have hc0 : 0 < c := by rw [hc, chunksPerCloud]; exact Nat.lt_of_lt_of_le Nat.one_pos (Nat.le_add_right _ _)
  have hmem : ∀ b < grid, ∀ t n p,
      ((n, p) ∈ (strideLoop b grid (N * c)).filterMap (fun chunk =>
        let n := chunk / c
        let p := block * (chunk % c) + t
        if p ≥ lengths n then none else some (n, p))) ↔
      ∃ chunk, chunk < N * c ∧ chunk % grid = b ∧ n = chunk / c ∧ p = block * (chunk % c) + t ∧
        p < lengths n := by
    intro b hb t n p
    rw [List.mem_filterMap]
    constructor
    · rintro ⟨chunk, h1, h2⟩
      rw [mem_strideLoop_lt hb] at h1
      simp only at h2
      split at h2
      · simp at h2
      · simp only [Option.some.injEq, Prod.mk.injEq] at h2
        obtain ⟨h3, h4⟩ := h2
        subst h3; subst h4
        exact ⟨chunk, h1.1, h1.2, rfl, rfl, by omega⟩
    · rintro ⟨chunk, h1, h2, rfl, rfl, h5⟩
      refine ⟨chunk, (mem_strideLoop_lt hb).mpr ⟨h1, h2⟩, ?_⟩
      simp only
      rw [if_neg (by omega)]
  have hinj : ∀ ch ch' t t' : Nat, t < block → t' < block → ch / c = ch' / c →
      block * (ch % c) + t = block * (ch' % c) + t' → ch = ch' ∧ t = t' := by
    intro ch ch' t t' ht ht' h1 h2
    have h3 : (block * (ch % c) + t) / block = (block * (ch' % c) + t') / block := by rw [h2]
    rw [Nat.mul_add_div (by omega), Nat.mul_add_div (by omega), Nat.div_eq_of_lt ht,
      Nat.div_eq_of_lt ht'] at h3
    simp only [Nat.add_zero] at h3
    refine ⟨?_, by rw [h3] at h2; omega⟩
    rw [← Nat.div_add_mod ch c, ← Nat.div_add_mod ch' c, h1, h3]
  refine ⟨?_, ?_⟩
  · rw [chunked, List.nodup_flatMap]
    refine ⟨?_, ?_⟩
    · intro b hb'
      rw [List.mem_range] at hb'
      rw [List.nodup_flatMap]
      refine ⟨?_, ?_⟩
      · intro t ht
        rw [List.mem_range] at ht
        refine List.Nodup.filterMap ?_ (nodup_strideLoop _ _ _ hg)
        intro a a' y hy hy'
        simp only [Option.mem_def] at hy hy'
        split at hy
        · simp at hy
        · split at hy'
          · simp at hy'
          · rw [← hy'] at hy
            simp only [Option.some.injEq, Prod.mk.injEq] at hy
            exact (hinj a a' t t ht ht hy.1 hy.2).1
      · refine List.nodup_range.pairwise_of_forall_ne ?_
        intro t ht t' ht' hne
        rw [List.mem_range] at ht ht'
        rw [Function.onFun, List.disjoint_left]
        rintro ⟨n, p⟩ hx hx'
        obtain ⟨ch, -, -, h1, h2, -⟩ := (hmem b hb' t n p).mp hx
        obtain ⟨ch', -, -, h1', h2', -⟩ := (hmem b hb' t' n p).mp hx'
        exact hne (hinj ch ch' t t' ht ht' (by omega) (by omega)).2
    · refine List.nodup_range.pairwise_of_forall_ne ?_
      intro b hb1 b' hb2 hne
      rw [List.mem_range] at hb1 hb2
      rw [Function.onFun, List.disjoint_left]
      rintro ⟨n, p⟩ hx hx'
      rw [List.mem_flatMap] at hx hx'
      obtain ⟨t, ht, hx⟩ := hx
      obtain ⟨t', ht', hx'⟩ := hx'
      rw [List.mem_range] at ht ht'
      obtain ⟨ch, -, hm, h1, h2, -⟩ := (hmem b hb1 t n p).mp hx
      obtain ⟨ch', -, hm', h1', h2', -⟩ := (hmem b' hb2 t' n p).mp hx'
      have := (hinj ch ch' t t' ht ht' (by omega) (by omega)).1
      subst this
      exact hne (hm.symm.trans hm')
  · intro n p
    rw [chunked, List.mem_flatMap]
    constructor
    · rintro ⟨b, hb', hx⟩
      rw [List.mem_range] at hb'
      rw [List.mem_flatMap] at hx
      obtain ⟨t, -, hx⟩ := hx
      obtain ⟨ch, h0, -, h1, -, h3⟩ := (hmem b hb' t n p).mp hx
      refine ⟨?_, h3⟩
      rw [h1]; exact Nat.div_lt_of_lt_mul (by rwa [Nat.mul_comm])
    · rintro ⟨hn, hp⟩
      have hpP : p < P := lt_of_lt_of_le hp (hl n hn)
      have hq : p / block < c := by
        rw [hc, chunksPerCloud]
        have : p / block ≤ (P - 1) / block := Nat.div_le_div_right (by omega)
        omega
      set ch := c * n + p / block with hch
      have e1 : ch / c = n := by rw [hch, Nat.mul_add_div hc0, Nat.div_eq_of_lt hq, Nat.add_zero]
      have e2 : ch % c = p / block := by rw [hch, Nat.mul_add_mod, Nat.mod_eq_of_lt hq]
      refine ⟨ch % grid, List.mem_range.mpr (Nat.mod_lt _ hg), ?_⟩
      rw [List.mem_flatMap]
      refine ⟨p % block, List.mem_range.mpr (Nat.mod_lt _ hb), ?_⟩
      refine (hmem _ (Nat.mod_lt _ hg) _ n p).mpr ⟨ch, ?_, rfl, e1.symm, ?_, hp⟩
      · calc ch < c * n + c := by omega
          _ = (n + 1) * c := by rw [Nat.mul_comm, Nat.add_mul, Nat.one_mul]
          _ ≤ N * c := Nat.mul_le_mul_right _ hn
      · rw [e2, Nat.div_add_mod]

example : gridStride 2 2 7 = [0, 4, 1, 5, 2, 6, 3] := by decide +kernel

example : chunked 2 2 2 3 (fun n => n + 2) = [(0, 0), (1, 0), (0, 1), (1, 1), (1, 2)] := by
  decide +kernel

end P3D.Chunks
