/-
The voxel grid implicit function (`pytorch3d/implicitron/models/implicit_function/voxel_grid_implicit_function.py`).

The grids, harmonic embeddings and decoders are functions of a point or of a direction; outputs are vectors with a width.
Not modelled: CUDA streams, autograd, creation of the decoders (`Decoders`).
-/
import Verif.VoxelGrid
import Mathlib.Data.List.MinMax

set_option linter.unusedSectionVars false

namespace P3D.VoxelImplicit

inductive Err
  | assertion
  | runtime
  deriving DecidableEq, Repr

/-! ### The code -/

variable {P D E K : Type}

/-- A ray: its direction and the points sampled on it. -/
structure Ray (P D : Type) where
  dir : D
  pts : List P

/-- `x[mask]`; an error if the lengths differ. -/
def select {α : Type} (mask : List Bool) (l : List α) : Except Err (List α) :=
  if mask.length = l.length then .ok (((mask.zip l).filter Prod.fst).map Prod.snd) else .error .runtime

/-- `out[mask] = vals` on zeros. -/
def scatter {α : Type} (z : α) : List Bool → List α → Except Err (List α)
  | [], [] => .ok []
  | [], _ :: _ => .error .runtime
  | false :: m, vs => (scatter z m vs).map (z :: ·)
  | true :: _, [] => .error .runtime
  | true :: m, v :: vs => (scatter z m vs).map (v :: ·)

/-- The learned functions and the widths of their outputs. -/
structure Net (P D E K : Type) where
  density : P → List K
  color : P → E → List K
  embed : D → E
  widthD : Nat
  widthC : Nat

/-- `_get_color` (lines 377-440): one embedded direction per ray, repeated for its points and filtered as they are. -/
def colors (n : Net P D E K) (pts : List P) (dirs : List D) (mask : Option (List Bool)) (m : Nat) : Except Err (List (List K)) :=
  let emb := (dirs.map n.embed).flatMap (List.replicate m)
  let emb : Except Err (List E) := match mask with
    | none => .ok emb
    | some mask => select mask emb
  match emb with
  | .error e => .error e
  | .ok emb => if pts.length = emb.length then .ok (List.zipWith n.color pts emb) else .error .runtime

/-- `forward` (lines 215-308); `scaffold` is given if it is ready and filters points, `m` the number of points of a ray. -/
def forward [Zero K] [LT K] [DecidableLT K] (n : Net P D E K) (scaffold : Option (P → K)) (m : Nat) (rays : List (Ray P D)) : Except Err (List (List K) × List (List K)) :=
  let pts := rays.flatMap Ray.pts
  let dirs := rays.map Ray.dir
  match scaffold with
  | none =>
    match colors n pts dirs none m with
    | .error e => .error e
    | .ok c => .ok (pts.map n.density, c)
  | some s =>
    let mask := pts.map fun p => decide (0 < s p)
    match select mask pts with
    | .error e => .error e
    | .ok kept =>
      if kept.length = 0 then .ok (pts.map (fun _ => [0]), pts.map (fun _ => [0, 0, 0]))
      else match colors n kept dirs (some mask) m with
        | .error e => .error e
        | .ok c =>
          match scatter (List.replicate n.widthD 0) mask (kept.map n.density) with
          | .error e => .error e
          | .ok d =>
            match scatter (List.replicate n.widthC 0) mask c with
            | .error e => .error e
            | .ok c => .ok (d, c)

/-- The coordinates each evaluation in `_get_scaffold` (lines 509-544) gets: the loop is over the last dimension of the points, that is their coordinates. -/
def coordChunks (size : Int) : List (List Nat) :=
  let c : Nat := if 0 < size then size.toNat else 3
  ((List.range 3).filter (· % c = 0)).map fun k => (List.range 3).filter fun i => decide (k ≤ i ∧ i < k + c)

/-- The densities of the scaffold's points: grids can only be evaluated at points with three coordinates. -/
def evalChunks (size : Int) : Except Err Nat :=
  if (coordChunks size).all fun l => l.length = 3 then .ok (coordChunks size).length else .error .runtime

/-- The size of the output of `max_pool3d` with stride one and padding `k // 2` along an axis. -/
def poolSize (n k : Nat) : Nat := n + 2 * (k / 2) + 1 - k

/-- The cells of an axis below the window of output cell `o`. -/
def window (n k o : Nat) : List Nat := (List.range n).filter fun i => decide (o ≤ i + k / 2 ∧ i + k / 2 < o + k)

/-- `max_pool3d` (lines 534-539): the maximum over the cells below the window, `-inf` without any. -/
def maxPool [LinearOrder K] (nx ny nz k : Nat) (g : Nat → Nat → Nat → K) (a b c : Nat) : WithBot K :=
  ((window nx k a).flatMap fun i => (window ny k b).flatMap fun j => (window nz k c).map fun l => g i j l).maximum

/-- The scaffold: `density_cube > threshold`. -/
def occupied [LinearOrder K] (nx ny nz k : Nat) (t : K) (g : Nat → Nat → Nat → K) (a b c : Nat) : Bool := decide ((t : WithBot K) < maxPool nx ny nz k g a b c)

/-- `torch.nonzero`. -/
def nonzero (nx ny nz : Nat) (occ : Nat → Nat → Nat → Bool) : List (Nat × Nat × Nat) :=
  (List.range nx).flatMap fun i => (List.range ny).flatMap fun j => ((List.range nz).filter fun k => occ i j k).map fun k => (i, j, k)

def lo (l : List Nat) (d : Nat) : Nat := l.foldr min d
def hi (l : List Nat) : Nat := l.foldr max 0

/-- The corners `_crop` (lines 472-507) crops the grids to, as indices of the scaffold; `none`: nothing is changed. -/
def cropBox (nx ny nz : Nat) (occ : Nat → Nat → Nat → Bool) : Option ((Nat × Nat × Nat) × (Nat × Nat × Nat)) :=
  let l := nonzero nx ny nz occ
  if l = [] then none
  else
    let x := l.map fun p => p.1
    let y := l.map fun p => p.2.1
    let z := l.map fun p => p.2.2
    some ((lo x nx, lo y ny, lo z nz), (hi x, hi y, hi z))

/-- The callback (lines 458-464): whether the scaffold is ready afterwards and whether parameters changed; `any` tells if the scaffold has an occupied cell. -/
def callback (scaf crop : List Nat) (any : Nat → Bool) (ready : Bool) (epoch : Nat) : Except Err (Bool × Bool) :=
  let r := if epoch ∈ scaf then true else ready
  if epoch ∈ crop then (if r then .ok (r, any epoch) else .error .assertion) else .ok (r, false)

/-- The callbacks of consecutive epochs from `e`, starting with a scaffold that is not ready: also after a model was loaded, as the flag is not saved. -/
def run (scaf crop : List Nat) (any : Nat → Bool) (e : Nat) : Nat → Except Err Bool
  | 0 => .ok false
  | n + 1 =>
    match run scaf crop any e n with
    | .error x => .error x
    | .ok r => (callback scaf crop any r (e + n)).map Prod.fst

/-! ### Theorems -/

theorem select_map {α : Type} (l : List α) (f : α → Bool) : select (l.map f) l = .ok (l.filter f) := by
  unfold select
  rw [if_pos (List.length_map _)]
  congr 1
  induction l with
  | nil => rfl
  | cons a l ih =>
    rw [List.map_cons, List.zip_cons_cons, List.filter_cons, List.filter_cons]
    cases h : f a with
    | false => simpa using ih
    | true => simpa using ih

theorem select_zip {α β : Type} : ∀ (l : List α) (f : α → Bool) (e : List β), e.length = l.length →
    select (l.map f) e = .ok (((l.zip e).filter fun p => f p.1).map Prod.snd)
  | l, f, e, h => by
    unfold select
    rw [if_pos (by rw [List.length_map, h])]
    congr 1
    induction l generalizing e with
    | nil => simp
    | cons a l ih =>
      cases e with
      | nil => simp at h
      | cons b e =>
        have := ih e (by simpa using h)
        rw [List.map_cons, List.zip_cons_cons, List.zip_cons_cons, List.filter_cons, List.filter_cons]
        cases hf : f a with
        | false => simpa using this
        | true => simpa using this

/-- Writing back what was selected restores the order, with zeros elsewhere. -/
theorem scatter_select {α β : Type} (z : β) (f : α → Bool) (v : α → β) : ∀ l : List α, scatter z (l.map f) ((l.filter f).map v) = .ok (l.map fun a => if f a then v a else z)
  | [] => rfl
  | a :: l => by
    have ih := scatter_select z f v l
    rw [List.map_cons, List.filter_cons]
    cases h : f a with
    | false =>
      simp only [Bool.false_eq_true, if_false]
      rw [scatter, ih, List.map_cons, h]
      rfl
    | true =>
      simp only [if_true]
      rw [List.map_cons, scatter, ih, List.map_cons, h]
      rfl

theorem flat_zip (n : Net P D E K) (m : Nat) : ∀ rays : List (Ray P D), (∀ r ∈ rays, r.pts.length = m) →
    (rays.flatMap Ray.pts).zip (((rays.map Ray.dir).map n.embed).flatMap (List.replicate m)) = rays.flatMap fun r => r.pts.map fun p => (p, n.embed r.dir)
  | [], _ => rfl
  | r :: rays, h => by
    have ih := flat_zip n m rays fun x hx => h x (List.mem_cons_of_mem _ hx)
    rw [List.flatMap_cons, List.map_cons, List.map_cons, List.flatMap_cons, List.flatMap_cons, List.zip_append (by rw [List.length_replicate]; exact h r List.mem_cons_self), ih]
    congr 1
    have hr := h r List.mem_cons_self
    rw [← hr]
    generalize r.pts = l
    induction l with
    | nil => rfl
    | cons a l ihl => rw [List.length_cons, List.replicate_succ, List.zip_cons_cons, ihl, List.map_cons]

theorem flat_length (n : Net P D E K) (m : Nat) (rays : List (Ray P D)) (h : ∀ r ∈ rays, r.pts.length = m) :
    (((rays.map Ray.dir).map n.embed).flatMap (List.replicate m)).length = (rays.flatMap Ray.pts).length := by
  induction rays with
  | nil => rfl
  | cons r rays ih =>
    rw [List.map_cons, List.map_cons, List.flatMap_cons, List.flatMap_cons, List.length_append, List.length_append, ih fun x hx => h x (List.mem_cons_of_mem _ hx),
      List.length_replicate, h r List.mem_cons_self]

/-- Every point with the embedded direction of its ray. -/
def tagged (n : Net P D E K) (rays : List (Ray P D)) : List (P × E) := rays.flatMap fun r => r.pts.map fun p => (p, n.embed r.dir)

theorem tagged_fst (n : Net P D E K) (rays : List (Ray P D)) : (tagged n rays).map Prod.fst = rays.flatMap Ray.pts := by
  unfold tagged
  rw [List.map_flatMap]
  congr 1
  funext r
  rw [List.map_map]
  exact List.map_id'' (fun _ => rfl) _

theorem zipWith_tagged (f : P → E → List K) (l : List (P × E)) : List.zipWith f (l.map Prod.fst) (l.map Prod.snd) = l.map fun q => f q.1 q.2 := by
  induction l with
  | nil => rfl
  | cons a l ih => rw [List.map_cons, List.map_cons, List.zipWith_cons_cons, ih, List.map_cons]

/-- Without the scaffold every point gets its density and its color seen along its own ray. -/
theorem forward_plain [Zero K] [LT K] [DecidableLT K] (n : Net P D E K) (m : Nat) (rays : List (Ray P D)) (h : ∀ r ∈ rays, r.pts.length = m) :
    forward n none m rays = .ok ((tagged n rays).map (fun q => n.density q.1), (tagged n rays).map fun q => n.color q.1 q.2) := by
  unfold forward colors
  dsimp only
  rw [if_pos (flat_length n m rays h).symm]
  dsimp only
  have hz := flat_zip n m rays h
  have hl := flat_length n m rays h
  have e1 : ∀ (a : List P) (b : List E), List.zipWith n.color a b = (a.zip b).map fun q => n.color q.1 q.2 := by
    intro a b
    rw [List.zip, List.map_zipWith]
  rw [e1, hz, ← tagged_fst n rays, List.map_map]
  rfl

/-- With the scaffold every point in an occupied cell gets exactly what it gets without, every other point zeros; when all points are filtered the widths are one and three whatever the decoders return. -/
theorem forward_scaffold [Zero K] [LT K] [DecidableLT K] (n : Net P D E K) (s : P → K) (m : Nat) (rays : List (Ray P D)) (h : ∀ r ∈ rays, r.pts.length = m) :
    ((∃ r ∈ rays, ∃ p ∈ r.pts, 0 < s p) → forward n (some s) m rays = .ok
      ((tagged n rays).map (fun q => if decide (0 < s q.1) then n.density q.1 else List.replicate n.widthD 0),
        (tagged n rays).map fun q => if decide (0 < s q.1) then n.color q.1 q.2 else List.replicate n.widthC 0))
    ∧ ((∀ r ∈ rays, ∀ p ∈ r.pts, ¬ 0 < s p) → forward n (some s) m rays = .ok ((tagged n rays).map (fun _ => [0]), (tagged n rays).map fun _ => [0, 0, 0])) := by
  have hsel := select_map (rays.flatMap Ray.pts) fun p => decide (0 < s p)
  have hcol : colors n ((rays.flatMap Ray.pts).filter fun p => decide (0 < s p)) (rays.map Ray.dir) (some ((rays.flatMap Ray.pts).map fun p => decide (0 < s p))) m
      = .ok (((tagged n rays).filter fun q => decide (0 < s q.1)).map fun q => n.color q.1 q.2) := by
    unfold colors
    dsimp only
    rw [select_zip _ _ _ (flat_length n m rays h), flat_zip n m rays h]
    dsimp only
    show (if _ = (((tagged n rays).filter fun q => decide (0 < s q.1)).map Prod.snd).length then Except.ok (List.zipWith n.color _ (((tagged n rays).filter fun q => decide (0 < s q.1)).map Prod.snd)) else _) = _
    have hf : (rays.flatMap Ray.pts).filter (fun p => decide (0 < s p)) = ((tagged n rays).filter fun q => decide (0 < s q.1)).map Prod.fst := by
      rw [← tagged_fst n rays, List.filter_map]
      rfl
    rw [hf, if_pos (by rw [List.length_map, List.length_map]), zipWith_tagged]
  have hmask : (rays.flatMap Ray.pts).map (fun p => decide (0 < s p)) = (tagged n rays).map fun q => decide (0 < s q.1) := by
    rw [← tagged_fst n rays, List.map_map]
    rfl
  have hmem : ∀ p, p ∈ rays.flatMap Ray.pts ↔ ∃ r ∈ rays, p ∈ r.pts := fun p => List.mem_flatMap
  refine ⟨fun hex => ?_, fun hall => ?_⟩
  · obtain ⟨r, hr, p, hp, hs⟩ := hex
    unfold forward
    dsimp only
    rw [hsel]
    dsimp only
    rw [if_neg, hcol]
    · dsimp only
      rw [scatter_select]
      dsimp only
      rw [hmask, scatter_select]
      dsimp only
      rw [← tagged_fst n rays, List.map_map]
      rfl
    · intro h0
      have : p ∈ (rays.flatMap Ray.pts).filter fun p => decide (0 < s p) := List.mem_filter.2 ⟨(hmem p).2 ⟨r, hr, hp⟩, decide_eq_true hs⟩
      rw [List.length_eq_zero_iff.1 h0] at this
      cases this
  · unfold forward
    dsimp only
    rw [hsel]
    dsimp only
    rw [if_pos]
    · rw [← tagged_fst n rays, List.map_map, List.map_map]
      rfl
    · rw [List.length_eq_zero_iff, List.filter_eq_nil_iff]
      intro p hp
      obtain ⟨r, hr, hpr⟩ := (hmem p).1 hp
      simpa using hall r hr p hpr

/-- If what the scaffold drops has no density anyway, densities are the same with and without it. -/
theorem forward_same [Zero K] [LT K] [DecidableLT K] (n : Net P D E K) (s : P → K) (m : Nat) (rays : List (Ray P D)) (h : ∀ r ∈ rays, r.pts.length = m)
    (hex : ∃ r ∈ rays, ∃ p ∈ r.pts, 0 < s p) (h0 : ∀ r ∈ rays, ∀ p ∈ r.pts, ¬ 0 < s p → n.density p = List.replicate n.widthD 0) :
    ∃ d c c', forward n none m rays = .ok (d, c) ∧ forward n (some s) m rays = .ok (d, c') := by
  refine ⟨_, _, (tagged n rays).map fun q => if decide (0 < s q.1) then n.color q.1 q.2 else List.replicate n.widthC 0, forward_plain n m rays h, ?_⟩
  rw [(forward_scaffold n s m rays h).1 hex]
  congr 2
  refine List.map_congr_left fun q hq => ?_
  unfold tagged at hq
  obtain ⟨r, hr, hq⟩ := List.mem_flatMap.1 hq
  obtain ⟨p, hp, rfl⟩ := List.mem_map.1 hq
  by_cases hs : 0 < s p
  · simp [hs]
  · simp [hs, h0 r hr p hp hs]

/-- Two rays of two points, the scaffold keeps positive points. -/
example : forward (K := Int) ⟨fun p : Int => [p * 10], fun p e => [p, e], fun d : Int => d + 100, 1, 2⟩ (some id) 2 [⟨1, [5, -5]⟩, ⟨2, [-6, 6]⟩]
    = .ok ([[50], [0], [0], [60]], [[5, 101], [0, 0], [0, 0], [6, 102]]) := by decide

/-- The option to compute the scaffold in chunks splits the three coordinates of the points: one and two always fail, anything else means no chunks. -/
theorem chunk_spec (size : Int) : evalChunks size = if size = 1 ∨ size = 2 then .error .runtime else .ok 1 := by
  by_cases h1 : size = 1
  · subst h1; decide
  by_cases h2 : size = 2
  · subst h2; decide
  rw [if_neg (by omega)]
  obtain ⟨c, hc3, hc⟩ : ∃ c : Nat, 3 ≤ c ∧ coordChunks size = ((List.range 3).filter (· % c = 0)).map fun k => (List.range 3).filter fun i => decide (k ≤ i ∧ i < k + c) := by
    by_cases hp : 0 < size
    · refine ⟨size.toNat, by omega, ?_⟩
      unfold coordChunks
      rw [if_pos hp]
    · refine ⟨3, le_refl _, ?_⟩
      unfold coordChunks
      rw [if_neg hp]
  have hl : (List.range 3).filter (· % c = 0) = [0] := by
    have e : List.range 3 = [0, 1, 2] := rfl
    rw [e]
    have m1 : 1 % c = 1 := Nat.mod_eq_of_lt (by omega)
    have m2 : 2 % c = 2 := Nat.mod_eq_of_lt (by omega)
    simp [m1, m2]
  have hw : ((List.range 3).filter fun i => decide (0 ≤ i ∧ i < 0 + c)) = [0, 1, 2] := by
    have e : List.range 3 = [0, 1, 2] := rfl
    rw [e]
    have c0 : 0 < c := by omega
    have c1 : 1 < c := by omega
    have c2 : 2 < c := by omega
    simp [c0, c1, c2]
  unfold evalChunks
  rw [hc, hl, List.map_singleton, hw]
  rfl

/-- An odd window keeps the resolution of the scaffold, an even one makes it larger by one. -/
theorem poolSize_spec (n k : Nat) : (k % 2 = 1 → poolSize n k = n) ∧ (k % 2 = 0 → poolSize n k = n + 1) := by
  unfold poolSize
  omega

theorem lt_maximum [LinearOrder K] (t : K) (l : List K) : (t : WithBot K) < l.maximum ↔ ∃ a ∈ l, t < a := by
  induction l with
  | nil => simp
  | cons a l ih =>
    rw [List.maximum_cons, lt_max_iff, ih, WithBot.coe_lt_coe]
    simp

theorem mem_window (n k o i : Nat) : i ∈ window n k o ↔ i < n ∧ o ≤ i + k / 2 ∧ i + k / 2 < o + k := by
  unfold window
  rw [List.mem_filter, List.mem_range, decide_eq_true_eq]

/-- A cell of the scaffold is occupied exactly if some density in its window exceeds the threshold. -/
theorem occupied_spec [LinearOrder K] (nx ny nz k : Nat) (t : K) (g : Nat → Nat → Nat → K) (a b c : Nat) :
    occupied nx ny nz k t g a b c = true ↔ ∃ i j l, (i ∈ window nx k a ∧ j ∈ window ny k b ∧ l ∈ window nz k c) ∧ t < g i j l := by
  unfold occupied maxPool
  rw [decide_eq_true_eq, lt_maximum]
  constructor
  · rintro ⟨v, hv, ht⟩
    simp only [List.mem_flatMap, List.mem_map] at hv
    obtain ⟨i, hi, j, hj, l, hl, rfl⟩ := hv
    exact ⟨i, j, l, ⟨hi, hj, hl⟩, ht⟩
  · rintro ⟨i, j, l, ⟨hi, hj, hl⟩, ht⟩
    refine ⟨g i j l, ?_, ht⟩
    simp only [List.mem_flatMap, List.mem_map]
    exact ⟨i, hi, j, hj, l, hl, rfl⟩

/-- For an odd window: exactly if a cell within `k // 2` along every axis exceeds it. -/
theorem occupied_odd [LinearOrder K] (nx ny nz k : Nat) (hk : k % 2 = 1) (t : K) (g : Nat → Nat → Nat → K) (a b c : Nat) :
    occupied nx ny nz k t g a b c = true ↔ ∃ i j l, (i < nx ∧ j < ny ∧ l < nz) ∧ ((i ≤ a + k / 2 ∧ a ≤ i + k / 2) ∧ (j ≤ b + k / 2 ∧ b ≤ j + k / 2) ∧ (l ≤ c + k / 2 ∧ c ≤ l + k / 2)) ∧ t < g i j l := by
  rw [occupied_spec]
  refine exists_congr fun i => exists_congr fun j => exists_congr fun l => ?_
  rw [mem_window, mem_window, mem_window]
  constructor
  · rintro ⟨⟨h1, h2, h3⟩, h4⟩
    exact ⟨by omega, by omega, h4⟩
  · rintro ⟨h1, h2, h4⟩
    exact ⟨⟨by omega, by omega, by omega⟩, h4⟩

/-- A cell whose own density exceeds the threshold is never dropped with an odd window. -/
theorem occupied_self [LinearOrder K] (nx ny nz k : Nat) (hk : k % 2 = 1) (t : K) (g : Nat → Nat → Nat → K) (a b c : Nat) (ha : a < nx) (hb : b < ny) (hc : c < nz) (h : t < g a b c) :
    occupied nx ny nz k t g a b c = true := (occupied_odd nx ny nz k hk t g a b c).2 ⟨a, b, c, ⟨ha, hb, hc⟩, by omega, h⟩

theorem mem_nonzero (nx ny nz : Nat) (occ : Nat → Nat → Nat → Bool) (p : Nat × Nat × Nat) :
    p ∈ nonzero nx ny nz occ ↔ (p.1 < nx ∧ p.2.1 < ny ∧ p.2.2 < nz) ∧ occ p.1 p.2.1 p.2.2 = true := by
  obtain ⟨i, j, k⟩ := p
  unfold nonzero
  simp only [List.mem_flatMap, List.mem_map, List.mem_filter, List.mem_range, Prod.mk.injEq]
  constructor
  · rintro ⟨i, hi, j, hj, k, ⟨hk, ho⟩, rfl, rfl, rfl⟩
    exact ⟨⟨hi, hj, hk⟩, ho⟩
  · rintro ⟨⟨hi, hj, hk⟩, ho⟩
    exact ⟨i, hi, j, hj, k, ⟨hk, ho⟩, rfl, rfl, rfl⟩

theorem lo_spec (d : Nat) : ∀ l : List Nat, (∀ x ∈ l, lo l d ≤ x) ∧ (l ≠ [] → (∀ x ∈ l, x ≤ d) → lo l d ∈ l)
  | [] => ⟨by simp, fun h => absurd rfl h⟩
  | a :: l => by
    obtain ⟨h1, h2⟩ := lo_spec d l
    have e : lo (a :: l) d = min a (lo l d) := rfl
    rw [e]
    refine ⟨fun x hx => ?_, fun _ hd => ?_⟩
    · rcases List.mem_cons.1 hx with rfl | hx
      · exact min_le_left _ _
      · exact (min_le_right _ _).trans (h1 x hx)
    · rcases Nat.le_total a (lo l d) with h | h
      · rw [min_eq_left h]; exact List.mem_cons_self
      · by_cases hl : l = []
        · subst hl
          rw [show min a (lo [] d) = a from min_eq_left (hd a List.mem_cons_self)]
          exact List.mem_cons_self
        · rw [min_eq_right h]
          exact List.mem_cons_of_mem _ (h2 hl fun x hx => hd x (List.mem_cons_of_mem _ hx))

theorem hi_spec : ∀ l : List Nat, (∀ x ∈ l, x ≤ hi l) ∧ (l ≠ [] → hi l ∈ l)
  | [] => ⟨by simp, fun h => absurd rfl h⟩
  | a :: l => by
    obtain ⟨h1, h2⟩ := hi_spec l
    have e : hi (a :: l) = max a (hi l) := rfl
    rw [e]
    refine ⟨fun x hx => ?_, fun _ => ?_⟩
    · rcases List.mem_cons.1 hx with rfl | hx
      · exact le_max_left _ _
      · exact (h1 x hx).trans (le_max_right _ _)
    · rcases Nat.le_total a (hi l) with h | h
      · by_cases hl : l = []
        · subst hl
          rw [show max a (hi []) = a from max_eq_left (Nat.zero_le _)]
          exact List.mem_cons_self
        · rw [max_eq_right h]
          exact List.mem_cons_of_mem _ (h2 hl)
      · rw [max_eq_left h]; exact List.mem_cons_self

/-- Nothing is cropped exactly if no cell is occupied. -/
theorem cropBox_none (nx ny nz : Nat) (occ : Nat → Nat → Nat → Bool) :
    cropBox nx ny nz occ = none ↔ ∀ i j k, i < nx → j < ny → k < nz → occ i j k = false := by
  unfold cropBox
  dsimp only
  constructor
  · intro h i j k hi hj hk
    by_contra ho
    have hm := (mem_nonzero nx ny nz occ (i, j, k)).2 ⟨⟨hi, hj, hk⟩, by simpa using ho⟩
    rw [if_neg (List.ne_nil_of_mem hm)] at h
    cases h
  · intro h
    rw [if_pos]
    refine List.eq_nil_iff_forall_not_mem.2 fun p hp => ?_
    obtain ⟨⟨h1, h2, h3⟩, h4⟩ := (mem_nonzero nx ny nz occ p).1 hp
    rw [h _ _ _ h1 h2 h3] at h4
    cases h4

/-- The box is the smallest with all occupied cells: it contains them all and each of its six faces touches one. -/
theorem cropBox_spec (nx ny nz : Nat) (occ : Nat → Nat → Nat → Bool) {a b : Nat × Nat × Nat} (h : cropBox nx ny nz occ = some (a, b)) :
    (∀ i j k, i < nx → j < ny → k < nz → occ i j k = true → (a.1 ≤ i ∧ i ≤ b.1) ∧ (a.2.1 ≤ j ∧ j ≤ b.2.1) ∧ (a.2.2 ≤ k ∧ k ≤ b.2.2))
      ∧ (∃ p ∈ nonzero nx ny nz occ, p.1 = a.1) ∧ (∃ p ∈ nonzero nx ny nz occ, p.1 = b.1) ∧ (∃ p ∈ nonzero nx ny nz occ, p.2.1 = a.2.1)
      ∧ (∃ p ∈ nonzero nx ny nz occ, p.2.1 = b.2.1) ∧ (∃ p ∈ nonzero nx ny nz occ, p.2.2 = a.2.2) ∧ (∃ p ∈ nonzero nx ny nz occ, p.2.2 = b.2.2) := by
  unfold cropBox at h
  dsimp only at h
  by_cases hn : nonzero nx ny nz occ = []
  · rw [if_pos hn] at h
    cases h
  rw [if_neg hn] at h
  have h := Option.some.inj h
  have ha := (congrArg Prod.fst h).symm
  have hb := (congrArg Prod.snd h).symm
  dsimp only at ha hb
  subst ha hb
  have hne : ∀ f : Nat × Nat × Nat → Nat, (nonzero nx ny nz occ).map f ≠ [] := fun f h => hn (List.map_eq_nil_iff.1 h)
  have low : ∀ (f : Nat × Nat × Nat → Nat) (d : Nat), (∀ p ∈ nonzero nx ny nz occ, f p ≤ d) → ∃ p ∈ nonzero nx ny nz occ, f p = lo ((nonzero nx ny nz occ).map f) d := fun f d hd =>
    List.mem_map.1 ((lo_spec d _).2 (hne f) (by
      intro x hx
      obtain ⟨p, hp, rfl⟩ := List.mem_map.1 hx
      exact hd p hp))
  have high : ∀ f : Nat × Nat × Nat → Nat, ∃ p ∈ nonzero nx ny nz occ, f p = hi ((nonzero nx ny nz occ).map f) := fun f =>
    List.mem_map.1 ((hi_spec _).2 (hne f))
  refine ⟨?_, low _ _ ?_, high _, low _ _ ?_, high _, low _ _ ?_, high _⟩
  · intro i j k hi' hj hk ho
    have hm := (mem_nonzero nx ny nz occ (i, j, k)).2 ⟨⟨hi', hj, hk⟩, ho⟩
    refine ⟨⟨(lo_spec nx _).1 _ (List.mem_map.2 ⟨_, hm, rfl⟩), (hi_spec _).1 _ (List.mem_map.2 ⟨_, hm, rfl⟩)⟩,
      ⟨(lo_spec ny _).1 _ (List.mem_map.2 ⟨_, hm, rfl⟩), (hi_spec _).1 _ (List.mem_map.2 ⟨_, hm, rfl⟩)⟩,
      ⟨(lo_spec nz _).1 _ (List.mem_map.2 ⟨_, hm, rfl⟩), (hi_spec _).1 _ (List.mem_map.2 ⟨_, hm, rfl⟩)⟩⟩
  · exact fun p hp => ((mem_nonzero _ _ _ _ p).1 hp).1.1.le
  · exact fun p hp => ((mem_nonzero _ _ _ _ p).1 hp).1.2.1.le
  · exact fun p hp => ((mem_nonzero _ _ _ _ p).1 hp).1.2.2.le

example : cropBox 3 3 3 (fun i j k => decide (i + j + k = 2 ∧ j < 2)) = some ((0, 0, 0), (2, 1, 2)) := by decide

/-- A change of parameters is reported exactly at cropping epochs with something in the scaffold. -/
theorem callback_change (scaf crop : List Nat) (any : Nat → Bool) (ready : Bool) (e : Nat) {r c : Bool} (h : callback scaf crop any ready e = .ok (r, c)) :
    c = (decide (e ∈ crop) && any e) ∧ r = (decide (e ∈ scaf) || ready) := by
  unfold callback at h
  dsimp only at h
  by_cases hc : e ∈ crop
  · rw [if_pos hc] at h
    by_cases hs : e ∈ scaf
    · rw [if_pos hs, if_pos rfl] at h
      cases h
      simp [hc, hs]
    · rw [if_neg hs] at h
      cases ready with
      | false => simp at h
      | true =>
        rw [if_pos rfl] at h
        cases h
        simp [hc]
  · rw [if_neg hc] at h
    cases h
    by_cases hs : e ∈ scaf
    · simp [hc, hs]
    · simp [hc, hs]

/-- The epochs from `e` run without error exactly if every cropping epoch has a scaffold computed at or before it within the same run; the scaffold is then in use if some of the epochs computed it. -/
theorem run_spec (scaf crop : List Nat) (any : Nat → Bool) (e n : Nat) :
    ((∀ c ∈ crop, e ≤ c → c < e + n → ∃ s ∈ scaf, e ≤ s ∧ s ≤ c) → ∃ r, run scaf crop any e n = .ok r ∧ (r = true ↔ ∃ s ∈ scaf, e ≤ s ∧ s < e + n))
      ∧ ((∃ c ∈ crop, (e ≤ c ∧ c < e + n) ∧ ∀ s ∈ scaf, e ≤ s → c < s) → run scaf crop any e n = .error .assertion) := by
  induction n with
  | zero =>
    refine ⟨fun _ => ⟨false, rfl, ?_⟩, ?_⟩
    · simp only [Bool.false_eq_true, false_iff]
      rintro ⟨s, _, h⟩
      omega
    · rintro ⟨c, _, h, _⟩
      omega
  | succ n ih =>
    obtain ⟨ih1, ih2⟩ := ih
    unfold run
    by_cases hbad : ∃ c ∈ crop, (e ≤ c ∧ c < e + n) ∧ ∀ s ∈ scaf, e ≤ s → c < s
    · rw [ih2 hbad]
      refine ⟨fun h => ?_, fun _ => rfl⟩
      obtain ⟨c, hc, hr, hno⟩ := hbad
      obtain ⟨s, hs, hs1, hs2⟩ := h c hc hr.1 (by omega)
      have := hno s hs hs1
      omega
    · push Not at hbad
      obtain ⟨r, hr, hiff⟩ := ih1 fun c hc h1 h2 => by
        obtain ⟨s, hs, h3, h4⟩ := hbad c hc ⟨h1, h2⟩
        exact ⟨s, hs, h3, h4⟩
      rw [hr]
      dsimp only
      have hr' : ((if e + n ∈ scaf then true else r) = true) ↔ ∃ s ∈ scaf, e ≤ s ∧ s < e + (n + 1) := by
        by_cases hs : e + n ∈ scaf
        · rw [if_pos hs]
          simp only [true_iff]
          exact ⟨e + n, hs, by omega, by omega⟩
        · rw [if_neg hs, hiff]
          constructor
          · rintro ⟨s, h1, h2, h3⟩
            exact ⟨s, h1, h2, by omega⟩
          · rintro ⟨s, h1, h2, h3⟩
            refine ⟨s, h1, h2, ?_⟩
            have : s ≠ e + n := fun h => hs (h ▸ h1)
            omega
      unfold callback
      dsimp only
      refine ⟨fun h => ?_, fun h => ?_⟩
      · refine ⟨_, ?_, hr'⟩
        by_cases hc : e + n ∈ crop
        · obtain ⟨s, hs, h1, h2⟩ := h _ hc (by omega) (by omega)
          rw [if_pos hc, if_pos (hr'.2 ⟨s, hs, h1, by omega⟩)]
          rfl
        · rw [if_neg hc]
          rfl
      · obtain ⟨c, hc, ⟨h1, h2⟩, hno⟩ := h
        have hcn : c = e + n := by
          by_contra hne
          obtain ⟨s, hs, h3, h4⟩ := hbad c hc ⟨h1, by omega⟩
          have := hno s hs h3
          omega
        subst hcn
        have : ¬ (if e + n ∈ scaf then true else r) = true := fun h => by
          obtain ⟨s, hs, h3, h4⟩ := hr'.1 h
          have := hno s hs h3
          omega
        rw [if_pos hc, if_neg this]
        rfl

/-- A run that computes the scaffold at epoch 10 and crops at 20 works, resuming it at 15 fails: the scaffold is not ready after loading. -/
theorem resume_fails (any : Nat → Bool) : (∃ r, run [10] [20] any 0 30 = .ok r) ∧ run [10] [20] any 15 15 = .error .assertion := by
  constructor
  · obtain ⟨r, h, _⟩ := (run_spec [10] [20] any 0 30).1 (by
      intro c hc _ _
      exact ⟨10, by simp, by omega, by simp at hc; omega⟩)
    exact ⟨r, h⟩
  · refine (run_spec [10] [20] any 15 15).2 ⟨20, by simp, by omega, ?_⟩
    intro s hs h
    simp at hs
    omega

end P3D.VoxelImplicit
