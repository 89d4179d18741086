/-
Videos of a scene seen by a camera that flies around it, and the images they are made of.

* `implicitron/models/visualization/render_flyaround.py:50-230` (`render_flyaround`), `233-243` (`_load_whole_dataset`), `246-281` (`_images_from_preds`), `284-297` (`_stack_images`), `300-333`
  (`_show_predictions`), `336-391` (`_generate_prediction_videos`)
* `implicitron/tools/video_writer.py:35-210` (`VideoWriter`)
* `implicitron/tools/vis_utils.py:20-37` (`get_visdom_env`), `44-69` (`get_visdom_connection`), `72-139` (`visualize_basics`), `142-190` (`make_depth_image`)
* `projects/implicitron_trainer/visualize_reconstruction.py:31-140` (sizes)

The trajectory is `Verif.Trajectory`.  Simplifications: numbers are exact; models, encoders and the permutation of torch are arguments; a camera is the four tensors that are exchanged, the rest of it
belongs to the frame; a directory is the list of its frames by number; interpolation is not modelled except for the size of its result.
-/
import Verif.Text
import Mathlib.Data.List.Sort
import Mathlib.Data.Nat.Sqrt
import Mathlib.Algebra.Order.Field.Basic
import Mathlib.Tactic.Ring
import Mathlib.Tactic.FieldSimp
import Mathlib.Tactic.Linarith
import Mathlib.Tactic.Positivity
import Mathlib.Tactic.NormNum
import Mathlib.Tactic.IntervalCases

set_option linter.unusedSectionVars false

namespace P3D.Flyaround

/-- What can go wrong. -/
inductive Err where
  | index
  | key
  | value
  | type
  | runtime
  | assertion
  deriving DecidableEq, Repr

/-! ## Poses and batches -/

section poses
variable {K : Type} [Field K] [LinearOrder K] [IsStrictOrderedRing K]

/-- `torch.linspace(0, max_angle, n + 1)[:n]`, `render_flyaround.py:152`. -/
def times (A : K) (n : Nat) : List K := ((List.range (n + 1)).map (fun i : Nat => A / (n : K) * (i : K))).take n

/-- As many times as poses, from zero in equal steps; two of them are never a whole turn apart, so no pose of a closed trajectory comes twice. -/
theorem times_spec (A : K) (hA : 0 < A) (n : Nat) : (times A n).length = n ∧
    ∀ (i j : Nat) (ti tj : K), i < j → (times A n)[i]? = some ti → (times A n)[j]? = some tj → ti = A / (n : K) * (i : K) ∧ 0 < tj - ti ∧ tj - ti < A := by
  have hg : ∀ (i : Nat) (t : K), (times A n)[i]? = some t → i < n ∧ t = A / (n : K) * (i : K) := by
    intro i t h
    unfold times at h
    rw [List.getElem?_take] at h
    split_ifs at h with hi
    rw [List.getElem?_map, List.getElem?_range (by omega)] at h
    exact ⟨hi, (Option.some.inj h).symm⟩
  refine ⟨by simp [times], ?_⟩
  intro i j ti tj hij hi hj
  obtain ⟨h1, rfl⟩ := hg i ti hi
  obtain ⟨h2, rfl⟩ := hg j tj hj
  have hn : (0 : K) < (n : K) := by exact_mod_cast (by omega : 0 < n)
  have hs : 0 < A / (n : K) := div_pos hA hn
  have hij' : (i : K) < (j : K) := by exact_mod_cast hij
  have hjn : (j : K) < (n : K) := by exact_mod_cast h2
  have hi0 : (0 : K) ≤ (i : K) := Nat.cast_nonneg i
  refine ⟨rfl, ?_, ?_⟩
  · rw [← mul_sub]
    exact mul_pos hs (sub_pos.mpr hij')
  · rw [← mul_sub]
    calc A / (n : K) * ((j : K) - (i : K)) < A / (n : K) * (n : K) := mul_lt_mul_of_pos_left (by linarith) hs
      _ = A := div_mul_cancel₀ A (ne_of_gt hn)

end poses

/-- The frames of the batch: a dummy, then source views (`render_flyaround.py:167-174`); `seq` are the frames of the sequence in order.  The loader refuses a batch size of zero. -/
def sources (seq : List Nat) (perm : List Nat) (n : Nat) : Except Err (List Nat) :=
  if seq = [] then .error .value else .ok ((0 :: perm.take n).filterMap (fun i => seq[i]?))

/-- The batch is the first frame of the sequence and then different frames of it, as many as asked for or all; an empty sequence is an error. -/
theorem sources_spec (seq : List Nat) (hs : seq.Nodup) (perm : List Nat) (hp : perm.Perm (List.range seq.length)) (n : Nat) :
    (seq = [] → sources seq perm n = .error .value) ∧
    ∀ f rest, seq = f :: rest → ∃ l, sources seq perm n = .ok (f :: l) ∧ l.length = min n seq.length ∧ l.Nodup ∧ ∀ x ∈ l, x ∈ seq := by
  constructor
  · intro h
    rw [sources, if_pos h]
  · intro f rest h
    have hlt : ∀ i ∈ perm.take n, i < seq.length := fun i hi => List.mem_range.mp (hp.mem_iff.mp (List.mem_of_mem_take hi))
    refine ⟨(perm.take n).filterMap (fun i => seq[i]?), ?_, ?_, ?_, ?_⟩
    · rw [sources, if_neg (by simp [h]), List.filterMap_cons, h]
      rfl
    · have e : ∀ l : List Nat, (∀ i ∈ l, i < seq.length) → (l.filterMap (fun i => seq[i]?)).length = l.length := by
        intro l
        induction l with
        | nil => intro _; rfl
        | cons a l ih =>
          intro hl
          rw [List.filterMap_cons, List.getElem?_eq_getElem (hl a (List.mem_cons_self ..))]
          simp only [List.length_cons]
          rw [ih (fun i hi => hl i (List.mem_cons_of_mem _ hi))]
      rw [e _ hlt, List.length_take, hp.length_eq, List.length_range]
    · have hn : (perm.take n).Nodup := (hp.nodup_iff.mpr List.nodup_range).sublist (List.take_sublist _ _)
      refine List.Nodup.filterMap ?_ hn
      intro a a' b hb hb'
      obtain ⟨h1, h1'⟩ := List.getElem?_eq_some_iff.mp hb
      obtain ⟨h2, h2'⟩ := List.getElem?_eq_some_iff.mp hb'
      exact (hs.getElem_inj_iff).mp (h1'.trans h2'.symm)
    · intro x hx
      obtain ⟨i, -, hi⟩ := List.mem_filterMap.mp hx
      exact List.mem_of_getElem? hi

/-- A frame of the batch. -/
structure Frame (I C : Type) where
  data : I
  camera : C

section fly
variable {I C P : Type}

/-- Exchange of the camera of the first frame, in place (`render_flyaround.py:179-180`). -/
def setCam (b : List (Frame I C)) (c : C) : List (Frame I C) := match b with
  | [] => []
  | f :: fs => ⟨f.data, c⟩ :: fs

/-- The loop over the poses (`render_flyaround.py:177-195`): predictions and the batch that is left. -/
def fly (model : List (Frame I C) → P) : List C → List (Frame I C) → List P × List (Frame I C)
  | [], b => ([], b)
  | c :: cs, b =>
    let b' := setCam b c
    let r := fly model cs b'
    (model b' :: r.1, r.2)

/-- One prediction for each pose, in order, of the first frame of the batch seen from this pose and the source views seen from where they are: nothing of an earlier pose is left.
The images of the batch, the one of the dummy frame too, are the same for all poses. -/
theorem fly_spec (model : List (Frame I C) → P) (cs : List C) (f : Frame I C) (fs : List (Frame I C)) :
    (fly model cs (f :: fs)).1 = cs.map (fun c => model (⟨f.data, c⟩ :: fs)) ∧ (fly model cs (f :: fs)).2.map (·.data) = (f :: fs).map (·.data) := by
  induction cs generalizing f with
  | nil => exact ⟨rfl, rfl⟩
  | cons c cs ih =>
    obtain ⟨h1, h2⟩ := ih ⟨f.data, c⟩
    simp only [fly, setCam, List.map_cons]
    exact ⟨by rw [h1], by simpa using h2⟩

end fly

/-! ## Images of predictions -/

section images
variable {V : Type}

/-- A key of `_images_from_preds` (`render_flyaround.py:258-279`): `preds k` is `none` for a missing key and `some none` for the value `None`; `.ok none` is a key that is not shown. -/
def extractOne (stack : V → Except Err V) (depth : V → V → V) (preds : String → Option (Option V)) (k : String) : Except Err (Option V) :=
  if k = "_all_source_images" ∧ (preds "image_rgb").isSome then
    match preds "image_rgb" with
    | some (some v) => match stack v with
      | .ok w => .ok (some w)
      | .error e => .error e
    | _ => .error .type
  else match preds k with
    | some (some v) =>
      if "depth".toList.isPrefixOf k.toList then
        match preds "masks_render" with
        | none => .error .key
        | some none => .error .type
        | some (some m) => .ok (some (depth v m))
      else .ok (some v)
    | _ => .ok none

/-- The merged dictionary, `render_flyaround.py:187-189`. -/
def merge (preds input : String → Option (Option V)) (inputKeys : List String) : Except Err (String → Option (Option V)) :=
  if ∀ k ∈ inputKeys, preds k = none then .ok (fun k => if k ∈ inputKeys then input k else preds k) else .error .assertion

/-- No prediction is overwritten by an input. -/
theorem merge_spec (preds input : String → Option (Option V)) (inputKeys : List String) :
    (∀ m, merge preds input inputKeys = .ok m → (∀ k, preds k ≠ none → m k = preds k) ∧ ∀ k ∈ inputKeys, m k = input k) ∧
    (merge preds input inputKeys = .error .assertion ↔ ∃ k ∈ inputKeys, preds k ≠ none) := by
  unfold merge
  constructor
  · intro m h
    split_ifs at h with h0
    injection h with h
    subst h
    refine ⟨?_, ?_⟩
    · intro k hk
      have : k ∉ inputKeys := fun hm => hk (h0 k hm)
      simp [this]
    · intro k hk
      simp [hk]
  · split_ifs with h0
    · simp only [false_iff]
      rintro ⟨k, hk, hne⟩
      exact hne (h0 k hk)
    · push Not at h0
      simpa using h0

/-- Source images are shown whenever there are images at all, depths need rendered masks, and anything else is shown as it is or, if missing, left out. -/
theorem extractOne_spec (stack : V → Except Err V) (depth : V → V → V) (preds : String → Option (Option V)) (k : String) :
    (∀ v w, preds "image_rgb" = some (some v) → stack v = .ok w → extractOne stack depth preds "_all_source_images" = .ok (some w)) ∧
    (∀ v m, k ≠ "_all_source_images" → preds k = some (some v) → "depth".toList.isPrefixOf k.toList = true → preds "masks_render" = some (some m) → extractOne stack depth preds k = .ok (some (depth v m))) ∧
    (∀ v, k ≠ "_all_source_images" → preds k = some (some v) → "depth".toList.isPrefixOf k.toList = true → preds "masks_render" = none → extractOne stack depth preds k = .error .key) ∧
    (∀ v, k ≠ "_all_source_images" → preds k = some (some v) → "depth".toList.isPrefixOf k.toList = false → extractOne stack depth preds k = .ok (some v)) ∧
    (k ≠ "_all_source_images" → (preds k = none ∨ preds k = some none) → extractOne stack depth preds k = .ok none) := by
  refine ⟨?_, ?_, ?_, ?_, ?_⟩
  · intro v w h1 h2
    simp [extractOne, h1, h2]
  · intro v m h1 h2 h3 h4
    unfold extractOne
    rw [if_neg (fun h => h1 h.1), h2]
    dsimp only
    rw [if_pos h3, h4]
  · intro v h1 h2 h3 h4
    unfold extractOne
    rw [if_neg (fun h => h1 h.1), h2]
    dsimp only
    rw [if_pos h3, h4]
  · intro v h1 h2 h3
    unfold extractOne
    rw [if_neg (fun h => h1 h.1), h2]
    dsimp only
    rw [if_neg (by rw [h3]; exact Bool.false_ne_true)]
  · rintro h1 (h2 | h2)
    · unfold extractOne
      rw [if_neg (fun h => h1 h.1), h2]
    · unfold extractOne
      rw [if_neg (fun h => h1 h.1), h2]

end images

/-! ## Stacking -/

section stack
variable {K : Type} [Field K] [LinearOrder K] [IsStrictOrderedRing K]

/-- An image (channels first). -/
structure Img (K : Type) where
  h : Nat
  w : Nat
  get : Nat → Nat → Nat → K

/-- `torch.cat(…, dim=2)` of images. -/
def catX : List (Img K) → Img K
  | [] => ⟨0, 0, fun _ _ _ => 0⟩
  | i :: l => ⟨i.h, i.w + (catX l).w, fun c y x => if x < i.w then i.get c y x else (catX l).get c y (x - i.w)⟩

/-- `torch.cat(…, dim=1)` of images. -/
def catY : List (Img K) → Img K
  | [] => ⟨0, 0, fun _ _ _ => 0⟩
  | i :: l => ⟨i.h + (catY l).h, i.w, fun c y x => if y < i.h then i.get c y x else (catY l).get c (y - i.h) x⟩

/-- `int(np.ceil(np.sqrt(ba)))`. -/
def side (n : Nat) : Nat := if Nat.sqrt n * Nat.sqrt n = n then Nat.sqrt n else Nat.sqrt n + 1

/-- `.clamp(0.0, 1.0)`. -/
def clamp01 (x : K) : K := min (max x 0) 1

/-- The images in the grid, filled up with black ones. -/
def filled (l : List (Img K)) (h w : Nat) : List (Img K) := l ++ List.replicate (side l.length * side l.length - l.length) ⟨h, w, fun _ _ _ => 0⟩

/-- `_stack_images` without a size, `render_flyaround.py:284-297`, for images of `h` by `w`; `torch.cat` of nothing is an error. -/
def stackImgs (l : List (Img K)) (h w : Nat) : Except Err (Img K) :=
  if l = [] then .error .runtime
  else
    let H := side l.length
    let rows := (List.range H).map (fun r => catX (((filled l h w).drop (r * H)).take H))
    .ok ⟨(catY rows).h, (catY rows).w, fun c y x => clamp01 ((catY rows).get c y x)⟩

/-- The smallest square grid that holds all images. -/
theorem side_spec (n : Nat) : n ≤ side n * side n ∧ ∀ m, n ≤ m * m → side n ≤ m := by
  have h1 := Nat.sqrt_le n
  have h2 := Nat.sqrt_lt_self (n := n)
  have h3 := Nat.lt_succ_sqrt n
  unfold side
  split_ifs with h
  · refine ⟨h.ge, ?_⟩
    intro m hm
    by_contra hc
    have : m * m < Nat.sqrt n * Nat.sqrt n := Nat.mul_self_lt_mul_self (by omega)
    omega
  · refine ⟨le_of_lt h3, ?_⟩
    intro m hm
    by_contra hc
    have : m * m ≤ Nat.sqrt n * Nat.sqrt n := Nat.mul_self_le_mul_self (by omega)
    omega

theorem catX_spec (l : List (Img K)) (w : Nat) (hw : ∀ i ∈ l, i.w = w) : (catX l).w = l.length * w ∧
    ∀ (n : Nat) (i : Img K), l[n]? = some i → ∀ c y x, x < w → (catX l).get c y (n * w + x) = i.get c y x := by
  induction l with
  | nil => exact ⟨by simp [catX], fun n i h => by simp at h⟩
  | cons a l ih =>
    obtain ⟨h1, h2⟩ := ih (fun i hi => hw i (List.mem_cons_of_mem _ hi))
    have ha := hw a (List.mem_cons_self ..)
    refine ⟨by simp only [catX, h1, ha, List.length_cons]; ring, ?_⟩
    intro n i hi c y x hx
    cases n with
    | zero =>
      simp only [List.getElem?_cons_zero, Option.some.injEq] at hi
      subst hi
      simp only [catX, Nat.zero_mul, Nat.zero_add]
      rw [if_pos (by omega)]
    | succ n =>
      rw [List.getElem?_cons_succ] at hi
      simp only [catX]
      have e : (n + 1) * w = n * w + w := by ring
      rw [if_neg (by omega), show (n + 1) * w + x - a.w = n * w + x by omega]
      exact h2 n i hi c y x hx

theorem catY_spec (l : List (Img K)) (h : Nat) (hh : ∀ i ∈ l, i.h = h) : (catY l).h = l.length * h ∧
    ∀ (n : Nat) (i : Img K), l[n]? = some i → ∀ c y x, y < h → (catY l).get c (n * h + y) x = i.get c y x := by
  induction l with
  | nil => exact ⟨by simp [catY], fun n i h => by simp at h⟩
  | cons a l ih =>
    obtain ⟨h1, h2⟩ := ih (fun i hi => hh i (List.mem_cons_of_mem _ hi))
    have ha := hh a (List.mem_cons_self ..)
    refine ⟨by simp only [catY, h1, ha, List.length_cons]; ring, ?_⟩
    intro n i hi c y x hy
    cases n with
    | zero =>
      simp only [List.getElem?_cons_zero, Option.some.injEq] at hi
      subst hi
      simp only [catY, Nat.zero_mul, Nat.zero_add]
      rw [if_pos (by omega)]
    | succ n =>
      rw [List.getElem?_cons_succ] at hi
      simp only [catY]
      have e : (n + 1) * h = n * h + h := by ring
      rw [if_neg (by omega), show (n + 1) * h + y - a.h = n * h + y by omega]
      exact h2 n i hi c y x hy

theorem catX_h (l : List (Img K)) (h : Nat) (hl : l ≠ []) (hh : ∀ i ∈ l, i.h = h) : (catX l).h = h := by
  cases l with
  | nil => exact absurd rfl hl
  | cons a l => exact hh a (List.mem_cons_self ..)

/-- The images one after the other in rows of a square grid, each at its place and clamped, the rest black; no source view at all is an error. -/
theorem stack_spec (l : List (Img K)) (h w : Nat) (hs : ∀ i ∈ l, i.h = h ∧ i.w = w) :
    (l = [] → stackImgs l h w = .error .runtime) ∧
    (l ≠ [] → ∃ o, stackImgs l h w = .ok o ∧ o.h = side l.length * h ∧ o.w = side l.length * w ∧
      ∀ r q, r < side l.length → q < side l.length → ∀ c y x, y < h → x < w →
        o.get c (r * h + y) (q * w + x) = match l[r * side l.length + q]? with
          | some i => clamp01 (i.get c y x)
          | none => 0) := by
  constructor
  · intro hl
    rw [stackImgs, if_pos hl]
  · intro hl
    have hn : 0 < l.length := List.length_pos_iff.mpr hl
    have hle := (side_spec l.length).1
    set H := side l.length with hH
    have hHpos : 0 < H := by
      rcases Nat.eq_zero_or_pos H with h0 | h0
      · rw [h0] at hle; omega
      · exact h0
    have hfl : (filled l h w).length = H * H := by
      simp only [filled, List.length_append, List.length_replicate, ← hH]
      omega
    have hfs : ∀ i ∈ filled l h w, i.h = h ∧ i.w = w := by
      intro i hi
      rcases List.mem_append.mp hi with hi | hi
      · exact hs i hi
      · rw [(List.mem_replicate.mp hi).2]
        exact ⟨rfl, rfl⟩
    have hrl : ∀ r, r < H → (((filled l h w).drop (r * H)).take H).length = H := by
      intro r hr
      rw [List.length_take, List.length_drop, hfl]
      have : (r + 1) * H ≤ H * H := Nat.mul_le_mul_right _ hr
      rw [Nat.add_mul] at this
      omega
    have hrow : ∀ r, ∀ i ∈ ((filled l h w).drop (r * H)).take H, i.h = h ∧ i.w = w := fun r i hi => hfs i (List.mem_of_mem_drop (List.mem_of_mem_take hi))
    have hrh : ∀ i ∈ (List.range H).map (fun r => catX (((filled l h w).drop (r * H)).take H)), i.h = h := by
      intro i hi
      obtain ⟨r, hr, rfl⟩ := List.mem_map.mp hi
      refine catX_h _ h ?_ (fun i hi => (hrow r i hi).1)
      intro h0
      have := hrl r (List.mem_range.mp hr)
      rw [h0] at this
      simp at this
      omega
    obtain ⟨y1, y2⟩ := catY_spec _ h hrh
    have hw : (catY ((List.range H).map (fun r => catX (((filled l h w).drop (r * H)).take H)))).w = H * w := by
      obtain ⟨H', hH'⟩ : ∃ m, H = m + 1 := ⟨H - 1, by omega⟩
      have : List.range H = 0 :: (List.range H').map Nat.succ := by rw [hH', List.range_succ_eq_map]
      rw [this, List.map_cons]
      simp only [catY]
      rw [(catX_spec _ w (fun i hi => (hrow 0 i hi).2)).1, hrl 0 hHpos]
    refine ⟨⟨(catY ((List.range H).map (fun r => catX (((filled l h w).drop (r * H)).take H)))).h, (catY ((List.range H).map (fun r => catX (((filled l h w).drop (r * H)).take H)))).w,
      fun c y x => clamp01 ((catY ((List.range H).map (fun r => catX (((filled l h w).drop (r * H)).take H)))).get c y x)⟩, by rw [stackImgs, if_neg hl], ?_, hw, ?_⟩
    · dsimp only
      rw [y1, List.length_map, List.length_range]
    · intro r q hr hq c y x hy hx
      dsimp only
      have hgr : ((List.range H).map (fun r => catX (((filled l h w).drop (r * H)).take H)))[r]? = some (catX (((filled l h w).drop (r * H)).take H)) := by
        rw [List.getElem?_map, List.getElem?_range hr]
        rfl
      rw [y2 r _ hgr c y _ hy]
      have hidx : r * H + q < H * H := by
        have : (r + 1) * H ≤ H * H := Nat.mul_le_mul_right _ hr
        rw [Nat.add_mul] at this
        omega
      have hgq : (((filled l h w).drop (r * H)).take H)[q]? = (filled l h w)[r * H + q]? := by
        rw [List.getElem?_take, if_pos hq, List.getElem?_drop]
      by_cases hin : r * H + q < l.length
      · have e : (filled l h w)[r * H + q]? = some l[r * H + q] := by
          rw [filled, List.getElem?_append_left hin, List.getElem?_eq_getElem hin]
        rw [(catX_spec _ w (fun i hi => (hrow r i hi).2)).2 q _ (hgq.trans e) c y x hx, List.getElem?_eq_getElem hin]
      · have e : (filled l h w)[r * H + q]? = some ⟨h, w, fun _ _ _ => 0⟩ := by
          rw [filled, List.getElem?_append_right (by omega), List.getElem?_replicate, if_pos (by rw [← hH]; omega)]
        rw [(catX_spec _ w (fun i hi => (hrow r i hi).2)).2 q _ (hgq.trans e) c y x hx, List.getElem?_eq_none (by omega)]
        simp [clamp01]

/-! ## Depth images -/

/-- `max(int(round(0.02 * n)), 1)`, `vis_utils.py:179-180` (both quantiles are 2 % from the end). -/
def rank (n : Nat) : Nat := max (Text.rhe ((n : ℚ) / 50)).toNat 1

/-- The values that count, `vis_utils.py:173`. -/
def okDepths (px : List (K × K)) : List K := (px.filter (fun p => decide (1 / 1000000 < p.1 ∧ 1 / 2 < p.2))).map (·.1)

/-- Limits of the values, `vis_utils.py:172-183`. -/
def limits (l : List K) : K × K :=
  if l.length ≤ 1 then (0, 0)
  else
    let s := l.mergeSort (fun a b => decide (a ≤ b))
    (s.getD (rank l.length - 1) 0, s.getD (l.length - rank l.length) 0)

/-- A pixel, `vis_utils.py:186-189`. -/
def depthPixel (lim : K × K) (d m : K) : K := clamp01 (((d - lim.1) / max (lim.2 - lim.1) (1 / 10000) * (9 / 10 - 1 / 10) + 1 / 10) * m)

/-- `make_depth_image` for one image. -/
def depthImage (px : List (K × K)) : List K := px.map (fun p => depthPixel (limits (okDepths px)) p.1 p.2)

theorem rank_spec (n : Nat) (hn : 2 ≤ n) : 1 ≤ rank n ∧ 2 * rank n ≤ n ∧ rank n ≤ n / 50 + 1 := by
  have h := (abs_le.mp (Text.rhe_spec ((n : ℚ) / 50)).1).2
  have h0 : 0 ≤ Text.rhe ((n : ℚ) / 50) := Text.rhe_nonneg (by positivity)
  obtain ⟨k, hk⟩ := Int.eq_ofNat_of_zero_le h0
  rw [hk] at h
  have hkn : 100 * k ≤ 2 * n + 50 := by
    have : (100 : ℚ) * (k : ℚ) ≤ 2 * (n : ℚ) + 50 := by
      push_cast at h
      linarith
    exact_mod_cast this
  unfold rank
  rw [hk, Int.toNat_natCast]
  omega

theorem clamp01_range (x : K) : 0 ≤ clamp01 x ∧ clamp01 x ≤ 1 := ⟨le_min (le_max_right _ _) zero_le_one, min_le_right _ _⟩

theorem sorted_s (l : List K) : (l.mergeSort (fun a b => decide (a ≤ b))).Pairwise (· ≤ ·) := by
  refine (List.pairwise_mergeSort (le := fun a b => decide (a ≤ b)) ?_ ?_ l).imp ?_
  · intro a b c h1 h2
    simp only [decide_eq_true_eq] at *
    exact le_trans h1 h2
  · intro a b
    simpa using le_total a b
  · intro a b h
    simpa using h

/-- In a sorted list at least `k + 1` entries are at most entry `k`, and at least the rest and it are not less. -/
theorem rank_counts (s : List K) (hs : s.Pairwise (· ≤ ·)) (k : Nat) (hk : k < s.length) :
    k + 1 ≤ (s.filter (fun x => decide (x ≤ s[k]))).length ∧ s.length - k ≤ (s.filter (fun x => decide (s[k] ≤ x))).length := by
  have hget := List.pairwise_iff_getElem.mp hs
  constructor
  · have h1 : (s.take (k + 1)).filter (fun x => decide (x ≤ s[k])) = s.take (k + 1) := by
      rw [List.filter_eq_self]
      intro x hx
      obtain ⟨i, hi, rfl⟩ := List.mem_iff_getElem.mp hx
      rw [List.length_take] at hi
      rw [List.getElem_take, decide_eq_true_eq]
      rcases Nat.lt_or_ge i k with h | h
      · exact hget i k (by omega) hk h
      · have : i = k := by omega
        subst this
        exact le_refl _
    have h2 := ((List.take_sublist (k + 1) s).filter (fun x => decide (x ≤ s[k]))).length_le
    rw [h1, List.length_take] at h2
    omega
  · have h1 : (s.drop k).filter (fun x => decide (s[k] ≤ x)) = s.drop k := by
      rw [List.filter_eq_self]
      intro x hx
      obtain ⟨i, hi, rfl⟩ := List.mem_iff_getElem.mp hx
      rw [List.length_drop] at hi
      rw [List.getElem_drop, decide_eq_true_eq]
      rcases Nat.eq_zero_or_pos i with h | h
      · subst h
        simp
      · exact hget k (k + i) hk (by omega) (by omega)
    have h2 := ((List.drop_sublist k s).filter (fun x => decide (s[k] ≤ x))).length_le
    rw [h1, List.length_drop] at h2
    exact h2

/-- The limits are values of the image in the right order; all but about two percent at each end of the values lie between them. -/
theorem limits_spec (l : List K) (hl : 2 ≤ l.length) : (limits l).1 ∈ l ∧ (limits l).2 ∈ l ∧ (limits l).1 ≤ (limits l).2 ∧
    l.length - (l.length / 50) ≤ (l.filter (fun x => decide ((limits l).1 ≤ x))).length ∧ l.length - (l.length / 50) ≤ (l.filter (fun x => decide (x ≤ (limits l).2))).length ∧
    rank l.length ≤ (l.filter (fun x => decide (x ≤ (limits l).1))).length ∧ rank l.length ≤ (l.filter (fun x => decide ((limits l).2 ≤ x))).length := by
  obtain ⟨r1, r2, r3⟩ := rank_spec l.length hl
  set s := l.mergeSort (fun a b => decide (a ≤ b)) with hsd
  have hp : s.Perm l := List.mergeSort_perm l _
  have hlen : s.length = l.length := hp.length_eq
  have hs : s.Pairwise (· ≤ ·) := sorted_s l
  have h1 : rank l.length - 1 < s.length := by omega
  have h2 : l.length - rank l.length < s.length := by omega
  have e : limits l = (s[rank l.length - 1], s[l.length - rank l.length]) := by
    rw [limits, if_neg (by omega)]
    dsimp only
    rw [← hsd]
    simp [List.getD, h1, h2]
  rw [e]
  dsimp only
  have hc : ∀ p : K → Bool, (l.filter p).length = (s.filter p).length := fun p => ((hp.filter p).length_eq).symm
  obtain ⟨a1, a2⟩ := rank_counts s hs _ h1
  obtain ⟨b1, b2⟩ := rank_counts s hs _ h2
  refine ⟨hp.mem_iff.mp (List.getElem_mem h1), hp.mem_iff.mp (List.getElem_mem h2), ?_, ?_, ?_, ?_, ?_⟩
  · rcases Nat.lt_or_ge (rank l.length - 1) (l.length - rank l.length) with h | h
    · exact List.pairwise_iff_getElem.mp hs _ _ h1 h2 h
    · have : rank l.length - 1 = l.length - rank l.length := by omega
      simp only [this]
      exact le_refl _
  · rw [hc]
    omega
  · rw [hc]
    omega
  · rw [hc]
    omega
  · rw [hc]
    omega

/-- Depth images are between 0 and 1, black where the mask is zero, and farther points are never darker under the same mask. -/
theorem depth_basic (lim : K × K) (d d' m : K) : 0 ≤ depthPixel lim d m ∧ depthPixel lim d m ≤ 1 ∧ depthPixel lim d 0 = 0 ∧
    (0 ≤ m → d ≤ d' → depthPixel lim d m ≤ depthPixel lim d' m) := by
  refine ⟨(clamp01_range _).1, (clamp01_range _).2, by simp [depthPixel, clamp01], ?_⟩
  intro hm hd
  unfold depthPixel clamp01
  have hp : 0 < max (lim.2 - lim.1) (1 / 10000) := lt_of_lt_of_le (by norm_num) (le_max_right _ _)
  refine min_le_min_right _ (max_le_max_right _ (mul_le_mul_of_nonneg_right ?_ hm))
  have : (d - lim.1) / max (lim.2 - lim.1) (1 / 10000) ≤ (d' - lim.1) / max (lim.2 - lim.1) (1 / 10000) := div_le_div_of_nonneg_right (by linarith) hp.le
  linarith

/-- Within the mask the limits are shown as 0.1 and 0.9 and what lies between them in proportion, unless they are closer than 1e-4. -/
theorem depth_limits (lim : K × K) (h : 1 / 10000 ≤ lim.2 - lim.1) (t : K) (h0 : 0 ≤ t) (h1 : t ≤ 1) :
    depthPixel lim (lim.1 + t * (lim.2 - lim.1)) 1 = 1 / 10 + t * (8 / 10) := by
  have hp : 0 < lim.2 - lim.1 := lt_of_lt_of_le (by norm_num) h
  unfold depthPixel clamp01
  rw [max_eq_left h, add_sub_cancel_left, mul_div_assoc, div_self (ne_of_gt hp), mul_one, mul_one, max_eq_left (by linarith), min_eq_left (by linarith)]
  ring

/-- With at most one valid pixel nothing is normalised: from depth 9/80000 on everything within the mask is white. -/
theorem depth_empty (l : List K) (hl : l.length ≤ 1) (d : K) (hd : 9 / 80000 ≤ d) : depthPixel (limits l) d 1 = 1 := by
  rw [limits, if_pos hl]
  unfold depthPixel clamp01
  simp only [sub_zero, mul_one]
  rw [max_eq_right (by norm_num : (0 : K) ≤ 1 / 10000)]
  have : 1 ≤ d / (1 / 10000) * (9 / 10 - 1 / 10) + 1 / 10 := by
    rw [div_eq_mul_inv]
    norm_num
    linarith
  rw [min_eq_right]
  exact le_max_of_le_left this

/-- Pixels that are not farther than 1e-6 or not more than half within the mask have no influence on others: changing them in any way changes no other pixel of the depth image. -/
theorem depth_ignores (px px' : List (K × K)) (h : List.Forall₂ (fun p q => p = q ∨ ((p.1 ≤ 1 / 1000000 ∨ p.2 ≤ 1 / 2) ∧ (q.1 ≤ 1 / 1000000 ∨ q.2 ≤ 1 / 2))) px px') (i : Nat) (hi : px[i]? = px'[i]?) :
    (depthImage px)[i]? = (depthImage px')[i]? := by
  have e : okDepths px = okDepths px' := by
    clear hi
    induction h with
    | nil => rfl
    | @cons p q l l' hpq _ ih =>
      unfold okDepths at ih ⊢
      rcases hpq with rfl | ⟨h1, h2⟩
      · rw [List.filter_cons, List.filter_cons]
        split_ifs
        · rw [List.map_cons, List.map_cons, ih]
        · exact ih
      · rw [List.filter_cons_of_neg, List.filter_cons_of_neg]
        · exact ih
        · simp only [decide_eq_true_eq]
          rintro ⟨a, b⟩
          rcases h2 with h2 | h2
          · exact absurd a (not_lt.mpr h2)
          · exact absurd b (not_lt.mpr h2)
        · simp only [decide_eq_true_eq]
          rintro ⟨a, b⟩
          rcases h1 with h1 | h1
          · exact absurd a (not_lt.mpr h1)
          · exact absurd b (not_lt.mpr h1)
  unfold depthImage
  rw [List.getElem?_map, List.getElem?_map, hi, e]

/-! ## The overview -/

/-- The divisor of depth maps in `visualize_basics` (`vis_utils.py:107-112`): the `n // 20`-th largest of the `n` values; none of zero values is an error. -/
def basicsFac (l : List K) : Except Err K :=
  if l.length / 20 = 0 then .error .index
  else .ok (max ((l.mergeSort (fun a b => decide (b ≤ a))).getD (l.length / 20 - 1) 0) (1 / 10000))

/-- Depth maps of fewer than twenty pixels cannot be shown. -/
theorem basicsFac_error (l : List K) : (basicsFac l = .error .index ↔ l.length < 20) ∧ ∀ v, basicsFac l = .ok v → 0 < v := by
  unfold basicsFac
  constructor
  · split_ifs with h
    · simp only [true_iff]
      omega
    · simp only [false_iff]
      omega
  · intro v hv
    split_ifs at hv with h
    injection hv with hv
    rw [← hv]
    exact lt_of_lt_of_le (by norm_num) (le_max_right _ _)

/-- The divisor is a value of the map, or 1e-4 if that is more: a twentieth of the values are not less, nineteen twentieths are not more. -/
theorem basicsFac_value (l : List K) (v : K) (h : basicsFac l = .ok v) : ∃ t ∈ l, v = max t (1 / 10000) ∧
    l.length / 20 ≤ (l.filter (fun x => decide (t ≤ x))).length ∧ l.length - l.length / 20 + 1 ≤ (l.filter (fun x => decide (x ≤ t))).length := by
  unfold basicsFac at h
  split_ifs at h with h0
  injection h with h
  set s := l.mergeSort (fun a b => decide (b ≤ a)) with hsd
  have hp : s.Perm l := List.mergeSort_perm l _
  have hs : s.Pairwise (fun a b => b ≤ a) := by
    refine (List.pairwise_mergeSort (le := fun a b => decide (b ≤ a)) ?_ ?_ l).imp ?_
    · intro a b c h1 h2
      simp only [decide_eq_true_eq] at *
      exact le_trans h2 h1
    · intro a b
      simpa using le_total b a
    · intro a b h
      simpa using h
  have hlen := hp.length_eq
  have hk : l.length / 20 - 1 < s.length := by omega
  have hr : s.reverse.Pairwise (· ≤ ·) := List.pairwise_reverse.mpr hs
  have hk' : s.length - 1 - (l.length / 20 - 1) < s.reverse.length := by
    rw [List.length_reverse]
    omega
  obtain ⟨a, b⟩ := rank_counts s.reverse hr _ hk'
  have e : s.reverse[s.length - 1 - (l.length / 20 - 1)] = s[l.length / 20 - 1] := by
    rw [List.getElem_reverse]
    congr 1
    omega
  rw [e, List.length_reverse] at b
  rw [e] at a
  have hc : ∀ p : K → Bool, (l.filter p).length = (s.reverse.filter p).length := fun p => (((s.reverse_perm.trans hp).filter p).length_eq).symm
  refine ⟨s[l.length / 20 - 1], hp.mem_iff.mp (List.getElem_mem hk), ?_, ?_, ?_⟩
  · rw [← h]
    simp [List.getD, hk]
  · rw [hc]
    omega
  · rw [hc]
    omega

end stack

/-- The width of an image in `visualize_basics` (`vis_utils.py:116-127`). -/
def basicsWidth (eval : Bool) (k : String) (h w : Nat) : Nat := (if eval = true ∧ (k = "images_render" ∨ k = "depths_render") then 600 else 200) * w / h

/-- The windows (`vis_utils.py:131-139`): all in one if they can be concatenated, else one for each; nothing to show is nothing. -/
def basicsWindows (eval : Bool) (ims : List (String × Nat × Nat)) : List String :=
  match ims.map (fun i => basicsWidth eval i.1 i.2.1 i.2.2) with
  | [] => []
  | w :: ws => if ∀ v ∈ ws, v = w then ["all"] else ims.map (·.1)

/-- Images of one size are shown in one window outside evaluation; in evaluation a rendered image and its ground truth of the same size never are. -/
theorem basics_windows (h w : Nat) (hh : 0 < h) (hw : h ≤ 200 * w) :
    (∀ ims : List (String × Nat × Nat), ims ≠ [] → (∀ i ∈ ims, i.2 = (h, w)) → basicsWindows false ims = ["all"]) ∧
    basicsWindows true [("image_rgb", h, w), ("images_render", h, w)] = ["image_rgb", "images_render"] := by
  constructor
  · intro ims hne hs
    have hall : ∀ i ∈ ims, basicsWidth false i.1 i.2.1 i.2.2 = 200 * w / h := by
      intro i hi
      rw [hs i hi]
      simp [basicsWidth]
    cases ims with
    | nil => exact absurd rfl hne
    | cons a l =>
      unfold basicsWindows
      rw [List.map_cons]
      dsimp only
      rw [if_pos]
      intro v hv
      obtain ⟨i, hi, rfl⟩ := List.mem_map.mp hv
      rw [hall i (List.mem_cons_of_mem _ hi), hall a (List.mem_cons_self ..)]
  · have h1 : 1 ≤ 200 * w / h := (Nat.one_le_div_iff hh).mpr hw
    have h2 : 3 * (200 * w / h) ≤ 600 * w / h := by
      rw [Nat.le_div_iff_mul_le hh]
      calc 3 * (200 * w / h) * h = 3 * (200 * w / h * h) := by ring
        _ ≤ 3 * (200 * w) := Nat.mul_le_mul_left _ (Nat.div_mul_le_self _ _)
        _ = 600 * w := by ring
    simp only [basicsWindows, List.map_cons, List.map_nil]
    rw [if_neg]
    intro hc
    have := hc _ (List.mem_singleton.mpr rfl)
    simp [basicsWidth] at this
    omega

/-! ## Video files -/

section video
variable {P : Type}

/-- The name of frame `n`: `"frame_%08d.png" % n`, `video_writer.py:74`. -/
def frameName (n : Nat) : Text.Str := "frame_".toList ++ (List.replicate (8 - (Text.fmtNat n).length) '0' ++ Text.fmtNat n) ++ ".png".toList

theorem val_zeros (z : Char) (hz : z.toNat = 48) (k : Nat) (s : Text.Str) : Text.val 0 (List.replicate k z ++ s) = Text.val 0 s := by
  have e : ∀ t : Text.Str, Text.val 0 (z :: t) = Text.val 0 t := fun t => by
    have h := Text.val_append 0 [z] t
    rw [List.singleton_append] at h
    have h1 : Text.val 0 [z] = z.toNat - 48 := by
      show 10 * 0 + (z.toNat - 48) = _
      rw [Nat.mul_zero, Nat.zero_add]
    rw [h, h1, hz]
  induction k with
  | zero => rw [List.replicate_zero, List.nil_append]
  | succ k ih => rw [List.replicate_succ, List.cons_append, e, ih]

/-- Different frames have different names, however many there are. -/
theorem frameName_inj (m n : Nat) (h : frameName m = frameName n) : m = n := by
  unfold frameName at h
  have h1 := (List.append_right_inj _).mp ((List.append_left_inj _).mp h)
  have h2 := congrArg (Text.val 0) h1
  rw [val_zeros _ (by decide), val_zeros _ (by decide), (Text.fmtNat_spec m).2.2, (Text.fmtNat_spec n).2.2] at h2
  exact h2

/-- Writing file `i` of a directory. -/
def writeAt (d : List (Option P)) (i : Nat) (p : P) : List (Option P) :=
  if i < d.length then d.set i (some p) else d ++ List.replicate (i - d.length) none ++ [some p]

/-- A `VideoWriter`: its directory, the files it has written and their number. -/
structure Writer (P : Type) where
  dir : List (Option P)
  frames : List Nat
  num : Nat

/-- The constructor, `video_writer.py:80-95`: `old` is what the directory contains (nothing for a temporary one). -/
def Writer.init (old : List (Option P)) (rmdir : Bool) : Writer P := ⟨if rmdir then [] else old, [], 0⟩

/-- `write_frame`, `video_writer.py:113-155`. -/
def Writer.write (w : Writer P) (p : P) : Writer P := ⟨writeAt w.dir w.num p, w.frames ++ [w.num], w.num + 1⟩

/-- The frames of the video, `video_writer.py:157-205`: torchvision is given the files that were written, ffmpeg a pattern, for which it takes files as long as there is a next one. -/
def Writer.video (w : Writer P) (torchvision : Bool) : Option (List P) :=
  if w.num = 0 then none
  else if torchvision then w.frames.mapM (fun i => (w.dir[i]?).join) else some ((w.dir.takeWhile (·.isSome)).filterMap id)

theorem write_all (old : List (Option P)) (rmdir : Bool) (ps : List P) :
    ps.foldl Writer.write (Writer.init old rmdir) = ⟨ps.map some ++ (Writer.init old rmdir).dir.drop ps.length, List.range ps.length, ps.length⟩ := by
  induction ps using List.reverseRecOn with
  | nil => simp [Writer.init]
  | append_singleton ps p ih =>
    rw [List.foldl_append, ih]
    set d := (Writer.init old rmdir).dir
    simp only [List.foldl_cons, List.foldl_nil, Writer.write, List.length_append, List.length_singleton, List.map_append, List.map_cons, List.map_nil, List.range_succ]
    congr 1
    unfold writeAt
    split_ifs with h
    · rw [List.length_append, List.length_map, List.length_drop] at h
      have hl : ps.length < d.length := by omega
      rw [List.set_append, if_neg (by simp), List.drop_eq_getElem_cons hl, List.length_map, Nat.sub_self, List.set_cons_zero, List.append_assoc]
      rfl
    · rw [List.length_append, List.length_map, List.length_drop] at h
      have hl : d.length ≤ ps.length := by omega
      rw [List.drop_eq_nil_of_le hl, List.drop_eq_nil_of_le (by omega)]
      simp

theorem takeWhile_some (ps : List P) (rest : List (Option P)) : ((ps.map some ++ rest).takeWhile (·.isSome)).filterMap id = ps ++ (rest.takeWhile (·.isSome)).filterMap id := by
  induction ps with
  | nil => rfl
  | cons p ps ih => simp

/-- torchvision makes a video of exactly the frames written, in order.  ffmpeg makes one of these and, after them, of old frames of the directory whose numbers follow: it is right exactly
if there is no old frame of the next number, in particular for an empty directory. -/
theorem video_spec (old : List (Option P)) (rmdir : Bool) (ps : List P) (hp : ps ≠ []) :
    (ps.foldl Writer.write (Writer.init old rmdir)).video true = some ps ∧
    (ps.foldl Writer.write (Writer.init old rmdir)).video false = some (ps ++ (((Writer.init old rmdir).dir.drop ps.length).takeWhile (·.isSome)).filterMap id) ∧
    ((ps.foldl Writer.write (Writer.init old rmdir)).video false = some ps ↔ rmdir = true ∨ (old[ps.length]?).join = none) := by
  have hn : ps.length ≠ 0 := fun h => hp (List.length_eq_zero_iff.mp h)
  rw [write_all]
  set d := (Writer.init old rmdir).dir with hd
  have h2 : (Writer.mk (ps.map some ++ d.drop ps.length) (List.range ps.length) ps.length).video false = some (ps ++ ((d.drop ps.length).takeWhile (·.isSome)).filterMap id) := by
    rw [Writer.video, if_neg hn, if_neg (by simp), takeWhile_some]
  refine ⟨?_, h2, ?_⟩
  · rw [Writer.video, if_neg hn, if_pos rfl]
    have : ∀ k, k ≤ ps.length → (List.range k).mapM (fun i => ((ps.map some ++ d.drop ps.length)[i]?).join) = some (ps.take k) := by
      intro k hk
      induction k with
      | zero => simp
      | succ k ih =>
        have hk' : k < ps.length := by omega
        rw [List.range_succ, List.mapM_append, ih (by omega), List.take_add_one, List.getElem?_eq_getElem hk']
        simp [List.getElem?_append_left, hk']
    have h := this ps.length (le_refl _)
    rwa [List.take_length] at h
  · rw [h2]
    have key : (((d.drop ps.length).takeWhile (·.isSome)).filterMap id = [] ↔ (d[ps.length]?).join = none) := by
      have h0 : d[ps.length]? = (d.drop ps.length)[0]? := by rw [List.getElem?_drop, Nat.add_zero]
      rw [h0]
      cases d.drop ps.length with
      | nil => simp
      | cons o l => cases o <;> simp
    constructor
    · intro h
      have h0 : ((d.drop ps.length).takeWhile (·.isSome)).filterMap id = [] := by
        have := Option.some.inj h
        exact List.append_right_eq_self.mp this
      cases rmdir with
      | true => exact Or.inl rfl
      | false => exact Or.inr (key.mp h0)
    · intro h
      have h0 : (d[ps.length]?).join = none := by
        rcases h with h | h
        · subst h
          simp [hd, Writer.init]
        · cases rmdir
          · simpa [hd, Writer.init] using h
          · simp [hd, Writer.init]
      rw [key.mpr h0, List.append_nil]

/-- Size of a frame, `video_writer.py:137-148`. -/
def frameSize (w h : Nat) : Nat × Nat := (w + w % 2, h + h % 2)

/-- Even, and at most a pixel more. -/
theorem frameSize_spec (w h : Nat) : 2 ∣ (frameSize w h).1 ∧ 2 ∣ (frameSize w h).2 ∧ w ≤ (frameSize w h).1 ∧ (frameSize w h).1 ≤ w + 1 ∧ h ≤ (frameSize w h).2 ∧ (frameSize w h).2 ≤ h + 1 := by
  unfold frameSize
  dsimp only
  omega

/-- Width and height that `visualize_reconstruction` gives to the model for `render_size` (lines 90-91), and that the video gets for `video_size`, which PIL takes as width and height; both are documented as height and width. -/
def renderSize (s : Nat × Nat) : Nat × Nat := (s.1, s.2)

/-- Sizes given as documented are exchanged unless the image is square. -/
theorem renderSize_exchanged (height width : Nat) : renderSize (height, width) = (width, height) ↔ height = width := by
  unfold renderSize
  simp only [Prod.mk.injEq]
  omega

/-- `_generate_prediction_videos`, `render_flyaround.py:355-380`: the frames of each video. -/
def videos (keys : List String) (preds : List (String → Option P)) : Except Err (List (String × List P)) :=
  match preds with
  | [] => .error .index
  | p :: ps =>
    let ks := keys.filter (fun k => (p k).isSome)
    if ∀ q ∈ p :: ps, ∀ k ∈ ks, (q k).isSome then .ok (ks.map (fun k => (k, (p :: ps).filterMap (fun q => q k)))) else .error .key

/-- A video for each key that the first prediction has, with one frame for each pose; a later prediction without it is an error, and so are no poses at all. -/
theorem videos_spec (keys : List String) (preds : List (String → Option P)) :
    (preds = [] → videos keys preds = .error .index) ∧
    ∀ vs, videos keys preds = .ok vs → (∀ k v, (k, v) ∈ vs → k ∈ keys ∧ v.length = preds.length ∧ ∀ (i : Nat) (q : String → Option P), preds[i]? = some q → v[i]? = q k) ∧
      (∀ k ∈ keys, ∀ p ps, preds = p :: ps → ((p k).isSome ↔ k ∈ vs.map (·.1))) := by
  constructor
  · rintro rfl
    rfl
  · intro vs h
    cases preds with
    | nil => cases h
    | cons p ps =>
      unfold videos at h
      dsimp only at h
      split_ifs at h with h0
      injection h with h
      subst h
      refine ⟨?_, ?_⟩
      · intro k v hkv
        obtain ⟨k', hk', he⟩ := List.mem_map.mp hkv
        simp only [Prod.mk.injEq] at he
        obtain ⟨rfl, rfl⟩ := he
        refine ⟨(List.mem_filter.mp hk').1, ?_⟩
        have hall : ∀ q ∈ p :: ps, (q k').isSome := fun q hq => h0 q hq k' hk'
        generalize p :: ps = l at hall
        clear h0 hk' hkv
        induction l with
        | nil => exact ⟨rfl, fun i q h => by simp at h⟩
        | cons a l ih =>
          obtain ⟨i1, i2⟩ := ih (fun q hq => hall q (List.mem_cons_of_mem _ hq))
          obtain ⟨x, hx⟩ := Option.isSome_iff_exists.mp (hall a (List.mem_cons_self ..))
          rw [List.filterMap_cons, hx]
          refine ⟨by simp [i1], ?_⟩
          intro i q hq
          cases i with
          | zero =>
            simp only [List.getElem?_cons_zero, Option.some.injEq] at hq
            rw [← hq, hx]
            rfl
          | succ i =>
            rw [List.getElem?_cons_succ] at hq
            exact i2 i q hq
      · intro k hk p' ps' he
        injection he with he _
        subst he
        simp only [List.map_map, List.mem_map, List.mem_filter, Function.comp, exists_eq_right]
        exact ⟨fun h => ⟨hk, h⟩, fun h => h.2⟩

/-- The path of a video, `f"{video_path}_{sequence_name}_{k}.mp4"`. -/
def videoPath (path seq k : Text.Str) : Text.Str := path ++ '_' :: seq ++ '_' :: k ++ ".mp4".toList

/-- Videos of different sequences or keys have different paths when no key ends with an underscore and another key; the default keys do not. -/
theorem videoPath_inj (path s s' k k' : Text.Str) (h1 : ¬ ('_' :: k) <:+ k') (h2 : ¬ ('_' :: k') <:+ k) (h : videoPath path s k = videoPath path s' k') : s = s' ∧ k = k' := by
  unfold videoPath at h
  have h3 := List.append_cancel_right h
  rw [List.append_assoc, List.append_assoc] at h3
  have h4 := List.append_cancel_left h3
  simp only [List.cons_append, List.cons.injEq, true_and] at h4
  have hs1 : ('_' :: k) <:+ s ++ '_' :: k := List.suffix_append _ _
  have hs2 : ('_' :: k') <:+ s ++ '_' :: k := by rw [h4]; exact List.suffix_append _ _
  have hk : '_' :: k = '_' :: k' := by
    rcases List.suffix_or_suffix_of_suffix hs1 hs2 with hx | hx
    · rcases List.suffix_cons_iff.mp hx with he | he
      · exact he
      · exact absurd he h1
    · rcases List.suffix_cons_iff.mp hx with he | he
      · exact he.symm
      · exact absurd he h2
  rw [hk] at h4
  exact ⟨List.append_cancel_right h4, by simpa using hk⟩

/-- When intermediate predictions are shown, `render_flyaround.py:198-200`. -/
def shown (N n : Nat) : Bool := decide (n % max (N / 20) 1 = 0) || decide (n + 1 = N)

/-- The first and the last, and never more than forty-one. -/
theorem shown_spec (N : Nat) (hN : 0 < N) : shown N 0 = true ∧ shown N (N - 1) = true ∧ ((List.range N).filter (shown N)).length ≤ 41 := by
  refine ⟨by simp [shown], by simp [shown]; omega, ?_⟩
  set st := max (N / 20) 1 with hst
  have hpos : 0 < st := by omega
  have hN40 : N < 40 * st := by omega
  have hsub : (List.range N).filter (shown N) ⊆ (List.range 40).map (fun q => q * st) ++ [N - 1] := by
    intro n hn
    obtain ⟨h1, h2⟩ := List.mem_filter.mp hn
    have hlt := List.mem_range.mp h1
    rw [List.mem_append]
    simp only [shown, Bool.or_eq_true, decide_eq_true_eq] at h2
    rcases h2 with h2 | h2
    · left
      refine List.mem_map.mpr ⟨n / st, List.mem_range.mpr ?_, Nat.div_mul_cancel (Nat.dvd_of_mod_eq_zero h2)⟩
      rw [Nat.div_lt_iff_lt_mul hpos]
      omega
    · right
      rw [List.mem_singleton]
      omega
  have := ((List.nodup_range (n := N)).filter (shown N)).subperm hsub
  have := this.length_le
  simpa using this

end video

/-! ## visdom -/

/-- `get_visdom_env`, `vis_utils.py:33-37`. -/
def visdomEnv (env dir : Text.Str) : Text.Str := if env.length = 0 then (Text.splitOn '/' dir).getLastD [] else env

theorem splitBy_ne (s : Text.Str) : Text.splitBy (· = '/') s ≠ [] := by
  cases s with
  | nil => simp [Text.splitBy]
  | cons c s =>
    unfold Text.splitBy
    split_ifs <;> simp

theorem splitBy_append (a b : Text.Str) : Text.splitBy (· = '/') (a ++ '/' :: b) = Text.splitBy (· = '/') a ++ Text.splitBy (· = '/') b := by
  induction a with
  | nil => simp [Text.splitBy]
  | cons c a ih =>
    rw [List.cons_append, Text.splitBy, Text.splitBy, ih]
    split_ifs
    · rfl
    · obtain ⟨x, l, hx⟩ := List.exists_cons_of_ne_nil (splitBy_ne a)
      rw [hx]
      simp

theorem splitBy_one (b : Text.Str) (hb : '/' ∉ b) : Text.splitBy (· = '/') b = [b] := by
  induction b with
  | nil => rfl
  | cons c b ih =>
    rw [List.mem_cons, not_or] at hb
    rw [Text.splitBy, if_neg (by simpa using Ne.symm hb.1), ih hb.2]
    rfl

/-- Without a name the environment is called as the last directory; a path that ends with a slash gives no name. -/
theorem visdomEnv_spec (env a b : Text.Str) (hb : '/' ∉ b) : (env ≠ [] → visdomEnv env (a ++ '/' :: b) = env) ∧ visdomEnv [] (a ++ '/' :: b) = b ∧ visdomEnv [] (a ++ ['/']) = [] := by
  have h : ∀ b : Text.Str, '/' ∉ b → visdomEnv [] (a ++ '/' :: b) = b := by
    intro b hb
    rw [visdomEnv, if_pos (List.length_nil), Text.splitOn, splitBy_append, splitBy_one b hb]
    simp
  refine ⟨?_, h b hb, h [] (by simp)⟩
  intro he
  rw [visdomEnv, if_neg (by simpa using he)]

/-- A connection is made once: later calls get the first one, whatever server they ask for. -/
def connect {C : Type} (make : String → Nat → C) (installed : Bool) (server : String) (port : Nat) (single : Option C) : Option C × Option C :=
  if installed = false ∨ server = "None" then (none, single)
  else match single with
    | some c => (some c, some c)
    | none => (some (make server port), some (make server port))

theorem connect_once {C : Type} (make : String → Nat → C) (server server' : String) (port port' : Nat) (h : server ≠ "None") (h' : server' ≠ "None") :
    (connect make true server' port' (connect make true server port none).2).1 = some (make server port) ∧ ∀ s, connect make true "None" port s = (none, s) := by
  constructor
  · simp [connect, h, h']
  · intro s
    simp [connect]

example : times (6 : ℚ) 3 = [0, 2, 4] := by norm_num [times, List.range_succ]
example : sources [10, 11, 12] [2, 0, 1] 2 = .ok [10, 12, 10] := by decide
example : side 10 = 4 := by
  have h1 := (side_spec 10).1
  have h2 := (side_spec 10).2 4 (by norm_num)
  interval_cases side 10 <;> omega
example : frameName 12 = "frame_00000012.png".toList := by decide
example : ([7, 8].foldl Writer.write (Writer.init [some 1, some 2, some 3] false)).video false = some [7, 8, 3] := by decide
example : depthPixel ((2 : ℚ), 4) 3 1 = 1 / 2 := by norm_num [depthPixel, clamp01]

end P3D.Flyaround
