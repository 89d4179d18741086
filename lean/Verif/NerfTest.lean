/-
Testing the NeRF project (`projects/nerf/test_nerf.py`) and the evaluation of depth-based rendering (`pytorch3d/implicitron/eval_demo.py`).

Not modelled: the networks (parameters are opaque; line 41 takes the number of fine points from `n_pts_per_ray`, so `n_pts_per_ray_fine` of the configuration has no effect), the trajectory (see `NerfProject`), statistics (see `NerfProject`), paths with directories (the checkpoint is in a fixed directory), failing writes, formats of pictures and films, and `ffmpeg` beyond reading the numbered pictures from number 0 up to the first that does not exist.
-/
import Verif.Checkpoints
import Verif.Storage
import Mathlib.Algebra.Order.Floor.Ring
import Mathlib.Data.Rat.Floor
import Mathlib.Data.List.Nodup
import Mathlib.Tactic.Linarith
import Mathlib.Tactic.NormNum
import Mathlib.Tactic.FieldSimp

set_option linter.unusedSectionVars false

namespace P3D.NerfTest
open P3D.Text P3D.Checkpoints
open P3D.Storage (Dict copied clash)

/-! ### The checkpoint -/

/-- Python's `p in s` of strings. -/
def hasInfix (p : Str) : Str → Bool
  | [] => p.isPrefixOf []
  | c :: s => p.isPrefixOf (c :: s) || hasInfix p s

def grid : Str := "_grid_raysampler._xy_grid".toList

variable {V : Type}

/-- `state_dict` (test_nerf.py:68-72): the checkpoint without the grids of pixels. -/
def stripped (ck : Dict V) : Dict V := fun k => if hasInfix grid k.toList then none else ck k

/-- `load_state_dict` with `strict=False` (line 73): other shapes are an error all the same; `names` are the names in either. -/
def loadTest (names : List String) (m ck : Dict V) : Option (Dict V) :=
  if clash names m (stripped ck) then none else some (copied m (stripped ck))

/-- How `main` ends before the loop (lines 61-98). -/
inductive Start
  /-- `ValueError`, lines 61-62 -/
  | noCheckpoint
  /-- a parameter of another shape, line 73 -/
  | shape
  | evaluation
  | video
  /-- Line 98 formats `cfg.test_mode`, which does not exist: the error of the configuration. -/
  | noAttribute
  deriving DecidableEq, Repr

def start (isFile loads : Bool) (mode : String) : Start :=
  if isFile = false then .noCheckpoint
  else if loads = false then .shape
  else if mode = "evaluation" then .evaluation
  else if mode = "export_video" then .video
  else .noAttribute

/-! ### The film -/

/-- `f"{batch_idx:05d}"` (line 145). -/
def pad5 (e : Nat) : Str := if e < 10 ^ 5 then fmtFixed 5 e else fmtNat e

/-- The name of a picture (line 145), and the one `ffmpeg` looks for (line 160). -/
def frameName (i : Nat) : Str := "frame_".toList ++ pad5 i ++ ".png".toList

/-- `export_dir` (line 95). -/
def exportDir (ckpt : Str) : Str := root ckpt ++ "_video".toList

variable {C : Type}

/-- The loop (lines 125-148) from number `i` on: nothing is removed from the directory. -/
def store (d : Dir C) : Nat → List C → Dir C
  | _, [] => d
  | i, c :: l => store (d.write (frameName i) c) (i + 1) l

/-- The pictures `ffmpeg` reads (lines 156-164), at most `fuel`. -/
def film (d : Dir C) : Nat → Nat → List C
  | 0, _ => []
  | fuel + 1, i => match d (frameName i) with
    | none => []
    | some c => c :: film d fuel (i + 1)

/-- Several runs for the same checkpoint. -/
def runs (d : Dir C) (l : List (List C)) : Dir C := l.foldl (fun d f => store d 0 f) d

/-- `(frame * 255.0).astype(np.uint8)` (line 147), `none` if the number does not fit. -/
def u8 {K : Type} [Field K] [LinearOrder K] [FloorRing K] (x : K) : Option Nat :=
  if 0 ≤ ⌊x * 255⌋ ∧ ⌊x * 255⌋ < 256 then some ⌊x * 255⌋.toNat else none

/-! ### eval_demo.py -/

/-- The evaluations of `main` (eval_demo.py:53-62) in order: whether the task is a single sequence, the category, and the sequence (line 105: -1 for none). -/
def plan (cats : List String) : List (Bool × String × Int) :=
  ((cats.take 20).flatMap fun c => [(true, c, 0), (true, c, 1)]) ++ (cats.take 10).map fun c => (false, c, -1)

/-! ### Properties -/

theorem hasInfix_iff (p s : Str) : hasInfix p s = true ↔ ∃ a b, s = a ++ p ++ b := by
  induction s with
  | nil =>
    unfold hasInfix
    rw [List.isPrefixOf_iff_prefix]
    constructor
    · rintro ⟨b, hb⟩
      exact ⟨[], b, by simpa using hb.symm⟩
    · rintro ⟨a, b, h⟩
      have h := h.symm
      simp only [List.append_eq_nil_iff] at h
      exact ⟨[], by simp [h.1.2]⟩
  | cons c s ih =>
    unfold hasInfix
    rw [Bool.or_eq_true, List.isPrefixOf_iff_prefix, ih]
    constructor
    · rintro (⟨b, hb⟩ | ⟨a, b, h⟩)
      · exact ⟨[], b, by simpa using hb.symm⟩
      · exact ⟨c :: a, b, by rw [h]; simp⟩
    · rintro ⟨a, b, h⟩
      cases a with
      | nil => exact Or.inl ⟨b, by simpa using h.symm⟩
      | cons x a =>
        simp only [List.cons_append, List.cons.injEq] at h
        exact Or.inr ⟨a, b, h.2⟩

/-- A name of a grid: it contains the name of the buffer. -/
def IsGrid (k : String) : Prop := ∃ a b, k.toList = a ++ "_grid_raysampler._xy_grid".toList ++ b

/-- Loading fails exactly if a parameter that is not a grid has another shape, so never because of another size of the images.  Otherwise the grids and the parameters that are not in the checkpoint keep the values of the new model, all others get those of the checkpoint. -/
theorem loadTest_spec (names : List String) (m ck : Dict V) (hn : ∀ k, (m k).isSome → k ∈ names) :
    (loadTest names m ck = none ↔ ∃ k s v s' v', ¬ IsGrid k ∧ m k = some (s, v) ∧ ck k = some (s', v') ∧ s ≠ s') ∧
    ∀ r, loadTest names m ck = some r → ∀ k,
      (IsGrid k → r k = m k) ∧ (ck k = none → r k = m k) ∧ (m k = none → r k = none) ∧
      ∀ s v s' v', ¬ IsGrid k → m k = some (s, v) → ck k = some (s', v') → r k = some (s', v') := by
  have hg : ∀ k, hasInfix grid k.toList = true ↔ IsGrid k := fun k => hasInfix_iff _ _
  have hs : ∀ k, IsGrid k → stripped ck k = none := fun k h => by
    unfold stripped
    rw [if_pos ((hg k).2 h)]
  have hs' : ∀ k, ¬ IsGrid k → stripped ck k = ck k := fun k h => by
    unfold stripped
    rw [if_neg (fun h' => h ((hg k).1 h'))]
  have hc : clash names m (stripped ck) = true ↔ ∃ k s v s' v', ¬ IsGrid k ∧ m k = some (s, v) ∧ ck k = some (s', v') ∧ s ≠ s' := by
    unfold clash
    rw [List.any_eq_true]
    constructor
    · rintro ⟨k, -, h⟩
      split at h
      · rename_i s v s' v' h1 h2
        by_cases hk : IsGrid k
        · rw [hs k hk] at h2
          cases h2
        · rw [hs' k hk] at h2
          exact ⟨k, s, v, s', v', hk, h1, h2, by simpa using h⟩
      · cases h
    · rintro ⟨k, s, v, s', v', hk, h1, h2, h3⟩
      refine ⟨k, hn k (by rw [h1]; rfl), ?_⟩
      rw [hs' k hk, h1, h2]
      simpa using h3
  unfold loadTest
  refine ⟨?_, ?_⟩
  · rw [← hc]
    by_cases h : clash names m (stripped ck) = true <;> simp [h]
  · intro r hr k
    by_cases h : clash names m (stripped ck) = true
    · rw [if_pos h] at hr
      cases hr
    · rw [if_neg h] at hr
      obtain rfl := Option.some.inj hr
      have hnone : stripped ck k = none → copied m (stripped ck) k = m k := by
        intro h0
        unfold copied
        rw [h0]
        cases m k <;> rfl
      refine ⟨fun hk => hnone (hs k hk), ?_, ?_, ?_⟩
      · intro h0
        by_cases hk : IsGrid k
        · exact hnone (hs k hk)
        · exact hnone (by rw [hs' k hk, h0])
      · intro h0
        unfold copied
        rw [h0]
      · intro s v s' v' hk h1 h2
        have he : s = s' := by
          by_contra hne
          exact h (hc.2 ⟨k, s, v, s', v', hk, h1, h2, hne⟩)
        unfold copied
        rw [hs' k hk, h1, h2]
        simp [he]

/-- Two checkpoints that only differ in grids are loaded alike: the size of the images at training does not matter. -/
theorem loadTest_size (names : List String) (m ck ck' : Dict V) (h : ∀ k, ¬ IsGrid k → ck k = ck' k) :
    loadTest names m ck = loadTest names m ck' := by
  have : stripped ck = stripped ck' := by
    funext k
    unfold stripped
    split_ifs with hk
    · rfl
    · exact h k (fun hg => hk ((hasInfix_iff _ _).2 hg))
  unfold loadTest
  rw [this]

example : (loadTest ["w", "_renderer.fine.raysampler._grid_raysampler._xy_grid"]
    (fun k => if k = "w" then some ([2], 1) else some ([8, 8], 2))
    (fun k => if k = "w" then some ([2], 5) else some ([4, 4], 6))).map (fun r => (r "w", r "_renderer.fine.raysampler._grid_raysampler._xy_grid"))
    = some (some ([2], 5), some ([8, 8], 2)) := by decide +kernel

/-- A missing checkpoint is reported before the mode is looked at, and an unknown mode ends with the error of the configuration instead of the intended message. -/
theorem start_spec (isFile loads : Bool) (mode : String) :
    (start isFile loads mode = .noCheckpoint ↔ isFile = false) ∧
    (start isFile loads mode = .noAttribute ↔ isFile = true ∧ loads = true ∧ mode ∉ ["evaluation", "export_video"]) ∧
    (start isFile loads mode = .video ↔ isFile = true ∧ loads = true ∧ mode = "export_video") := by
  unfold start
  cases isFile <;> cases loads <;> simp
  by_cases h1 : mode = "evaluation"
  · subst h1
    simp
  · by_cases h2 : mode = "export_video"
    · subst h2
      simp
    · simp [h1, h2]

example : start true true "video" = .noAttribute := by decide

theorem pad5_digits (e : Nat) : (pad5 e).all isDigit = true ∧ val 0 (pad5 e) = e := by
  unfold pad5
  split_ifs with h
  · obtain ⟨h1, h2, h3⟩ := fmtFixed_spec 5 e
    refine ⟨h2, ?_⟩
    rw [h3, Nat.mod_eq_of_lt h]
    omega
  · exact (fmtNat_spec e).2

/-- Pictures of different numbers never overwrite each other, also beyond five digits. -/
theorem frameName_inj {i j : Nat} (h : frameName i = frameName j) : i = j := by
  unfold frameName at h
  have h := List.append_cancel_left (List.append_cancel_right h)
  have := congrArg (val 0) h
  rwa [(pad5_digits i).2, (pad5_digits j).2] at this

example : frameName 7 = "frame_00007.png".toList := by decide +kernel

/-- What is in the directory after a run: its pictures, and everything else as before. -/
theorem store_get (l : List C) : ∀ (d : Dir C) (i : Nat),
    (∀ j, j < l.length → store d i l (frameName (i + j)) = l[j]?) ∧
    (∀ n, (∀ j, j < l.length → n ≠ frameName (i + j)) → store d i l n = d n) := by
  induction l with
  | nil => exact fun d i => ⟨fun j hj => absurd hj (by simp), fun n _ => rfl⟩
  | cons c l ih =>
    intro d i
    obtain ⟨h1, h2⟩ := ih (d.write (frameName i) c) (i + 1)
    have hstep : store d i (c :: l) = store (d.write (frameName i) c) (i + 1) l := rfl
    rw [hstep]
    refine ⟨fun j hj => ?_, fun n hn => ?_⟩
    · cases j with
      | zero =>
        rw [h2 (frameName (i + 0)) (fun j _ he => by have := frameName_inj he; omega)]
        unfold Dir.write
        simp
      | succ j =>
        have := h1 j (by simpa using hj)
        rw [show i + (j + 1) = i + 1 + j by omega, this]
        simp
    · rw [h2 n (fun j hj he => hn (j + 1) (by simpa using hj) (by rw [he]; congr 1; omega))]
      unfold Dir.write
      rw [if_neg (fun he => hn 0 (by simp) (by rw [he]; rfl))]

/-- The pictures in a directory, as a list. -/
def Holds (d : Dir C) (l : List C) : Prop := ∀ i, d (frameName i) = l[i]?

theorem film_holds (d : Dir C) (l : List C) (h : Holds d l) : ∀ (fuel i : Nat), l.length - i ≤ fuel → film d fuel i = l.drop i
  | 0, i, hf => by
    rw [List.drop_eq_nil_of_le (by omega)]
    rfl
  | fuel + 1, i, hf => by
    unfold film
    rw [h i]
    by_cases hi : i < l.length
    · rw [List.getElem?_eq_getElem hi]
      dsimp only
      rw [film_holds d l h fuel (i + 1) (by omega), ← List.drop_eq_getElem_cons hi]
    · rw [List.getElem?_eq_none (by omega), List.drop_eq_nil_of_le (by omega)]

/-- A run replaces the first pictures and leaves the others of an earlier, longer run. -/
theorem store_holds (d : Dir C) (old new : List C) (h : Holds d old) : Holds (store d 0 new) (new ++ old.drop new.length) := by
  intro i
  obtain ⟨h1, h2⟩ := store_get new d 0
  by_cases hi : i < new.length
  · have := h1 i hi
    rw [Nat.zero_add] at this
    rw [this, List.getElem?_append_left hi]
  · rw [h2 (frameName i) (fun j hj he => by have := frameName_inj he; omega), h i, List.getElem?_append_right (by omega), List.getElem?_drop]
    congr 1
    omega

/-- The film after any runs for one checkpoint: picture by picture from the last run that was long enough. -/
theorem film_runs (d : Dir C) (h : Holds d []) (l : List (List C)) (fuel : Nat) (hf : ∀ r ∈ l, r.length ≤ fuel) :
    film (runs d l) fuel 0 = l.foldl (fun old new => new ++ old.drop new.length) [] := by
  have key : ∀ (l : List (List C)) (d : Dir C) (old : List C), Holds d old → old.length ≤ fuel → (∀ r ∈ l, r.length ≤ fuel) →
      Holds (runs d l) (l.foldl (fun old new => new ++ old.drop new.length) old) ∧ (l.foldl (fun old new => new ++ old.drop new.length) old).length ≤ fuel := by
    intro l
    induction l with
    | nil => exact fun d old h1 h2 _ => ⟨h1, h2⟩
    | cons r l ih =>
      intro d old h1 h2 h3
      refine ih (store d 0 r) _ (store_holds d old r h1) ?_ (fun x hx => h3 x (List.mem_cons_of_mem _ hx))
      have := h3 r List.mem_cons_self
      simp only [List.length_append, List.length_drop]
      omega
  obtain ⟨h1, h2⟩ := key l d [] h (by simp) hf
  rw [film_holds _ _ h1 fuel 0 (by omega), List.drop_zero]

/-- The first run films its own pictures; a shorter second one ends with pictures of the first. -/
theorem film_stale (d : Dir C) (h : Holds d []) (a b : List C) (fuel : Nat) (ha : a.length ≤ fuel) (hb : b.length ≤ fuel) :
    film (runs d [a]) fuel 0 = a ∧ (film (runs d [a, b]) fuel 0 = b ↔ a.length ≤ b.length) := by
  refine ⟨?_, ?_⟩
  · rw [film_runs d h [a] fuel (by simpa using ha)]
    simp
  · rw [film_runs d h [a, b] fuel (by simp [ha, hb])]
    simp

example : film (runs (fun _ => none) [[1, 2, 3], [7]]) 9 0 = [7, 2, 3] := by decide +kernel

/-- Checkpoints that differ in the extension only share the directory, so also their pictures. -/
theorem exportDir_shared (a e e' : Str) (ha : a.any (fun c => decide (c ≠ '.')) = true) (he : '.' ∉ e) (he' : '.' ∉ e') :
    exportDir (a ++ '.' :: e) = a ++ "_video".toList ∧ exportDir (a ++ '.' :: e) = exportDir (a ++ '.' :: e') := by
  unfold exportDir
  rw [root_dot a e he ha, root_dot a e' he' ha]
  exact ⟨rfl, rfl⟩

example : exportDir "lego.pth".toList = "lego_video".toList := by decide +kernel

section bytes
variable {K : Type} [Field K] [LinearOrder K] [IsStrictOrderedRing K] [FloorRing K]

/-- Colours from 0 to 1 fit in a byte and lose less than one step, always downwards; the largest byte is for 1 only. -/
theorem u8_spec (x : K) (h0 : 0 ≤ x) (h1 : x ≤ 1) :
    ∃ b, u8 x = some b ∧ (b : K) / 255 ≤ x ∧ x < ((b : K) + 1) / 255 ∧ (b = 255 ↔ x = 1) := by
  have hlo : (0 : ℤ) ≤ ⌊x * 255⌋ := Int.floor_nonneg.2 (by linarith)
  have hhi : ⌊x * 255⌋ < 256 := Int.floor_lt.2 (by push_cast; linarith)
  have hc : ((⌊x * 255⌋.toNat : ℕ) : K) = ((⌊x * 255⌋ : ℤ) : K) := by
    have : ((⌊x * 255⌋.toNat : ℕ) : ℤ) = ⌊x * 255⌋ := Int.toNat_of_nonneg hlo
    exact_mod_cast congrArg (Int.cast : ℤ → K) this
  have ha := Int.floor_le (x * 255)
  have hb := Int.lt_floor_add_one (x * 255)
  refine ⟨⌊x * 255⌋.toNat, ?_, ?_, ?_, ?_⟩
  · unfold u8
    rw [if_pos ⟨hlo, hhi⟩]
  · rw [hc, div_le_iff₀ (by norm_num)]
    exact ha
  · rw [hc, lt_div_iff₀ (by norm_num)]
    exact hb
  · constructor
    · intro h
      rw [h] at hc
      rw [← hc] at ha
      push_cast at ha
      linarith
    · intro h
      subst h
      have : ⌊(1 : K) * 255⌋ = 255 := by
        rw [one_mul]
        exact_mod_cast Int.floor_natCast (R := K) 255
      rw [this]
      rfl

end bytes

example : u8 (999 / 1000 : ℚ) = some 254 := by
  have : ⌊(999 / 1000 : ℚ) * 255⌋ = 254 := by norm_num [Int.floor_eq_iff]
  unfold u8
  rw [this]
  rfl

/-- Every evaluation takes place once: both sequences of the first twenty categories and all of the first ten. -/
theorem plan_spec (cats : List String) (hn : cats.Nodup) :
    (plan cats).Nodup ∧ (plan cats).length = 2 * min 20 cats.length + min 10 cats.length ∧
    ∀ t c s, (t, c, s) ∈ plan cats ↔ (t = true ∧ c ∈ cats.take 20 ∧ (s = 0 ∨ s = 1)) ∨ (t = false ∧ c ∈ cats.take 10 ∧ s = -1) := by
  have hm : ∀ t c s, (t, c, s) ∈ plan cats ↔ (t = true ∧ c ∈ cats.take 20 ∧ (s = 0 ∨ s = 1)) ∨ (t = false ∧ c ∈ cats.take 10 ∧ s = -1) := by
    intro t c s
    unfold plan
    simp only [List.mem_append, List.mem_flatMap, List.mem_map, List.mem_cons, List.not_mem_nil, or_false, Prod.mk.injEq]
    constructor
    · rintro (⟨c', hc, (⟨rfl, rfl, rfl⟩ | ⟨rfl, rfl, rfl⟩)⟩ | ⟨c', hc, rfl, rfl, rfl⟩)
      · exact Or.inl ⟨rfl, hc, Or.inl rfl⟩
      · exact Or.inl ⟨rfl, hc, Or.inr rfl⟩
      · exact Or.inr ⟨rfl, hc, rfl⟩
    · rintro (⟨rfl, hc, (rfl | rfl)⟩ | ⟨rfl, hc, rfl⟩)
      · exact Or.inl ⟨c, hc, Or.inl ⟨rfl, rfl, rfl⟩⟩
      · exact Or.inl ⟨c, hc, Or.inr ⟨rfl, rfl, rfl⟩⟩
      · exact Or.inr ⟨c, hc, rfl, rfl, rfl⟩
  refine ⟨?_, ?_, hm⟩
  · unfold plan
    rw [List.nodup_append]
    refine ⟨?_, ?_, ?_⟩
    · rw [List.nodup_flatMap]
      refine ⟨fun c _ => by simp, ?_⟩
      refine List.Pairwise.imp ?_ (List.Nodup.sublist (List.take_sublist 20 cats) hn)
      intro a b hab x hx hx'
      simp only [List.mem_cons, List.not_mem_nil, or_false] at hx hx'
      rcases hx with rfl | rfl <;> rcases hx' with h | h <;> simp [Prod.mk.injEq] at h <;> exact hab h
    · exact List.Nodup.map (fun a b h => by simpa using h) (List.Nodup.sublist (List.take_sublist 10 cats) hn)
    · rintro a ha b hb rfl
      simp only [List.mem_flatMap, List.mem_map, List.mem_cons, List.not_mem_nil, or_false] at ha hb
      obtain ⟨c, -, rfl⟩ := hb
      obtain ⟨c', -, h | h⟩ := ha <;> simp at h
  · unfold plan
    rw [List.length_append, List.length_map, List.length_take, List.length_flatMap]
    simp
    omega

example : plan ["apple", "ball"] = [(true, "apple", 0), (true, "apple", 1), (true, "ball", 0), (true, "ball", 1), (false, "apple", -1), (false, "ball", -1)] := by decide +kernel

end P3D.NerfTest
