/-
Proofs about `SphereTrace`.
-/
import Verif.SphereTrace

set_option linter.unusedSectionVars false
set_option linter.unusedSimpArgs false
set_option linter.unusedVariables false

namespace P3D.SphereTrace

variable {K : Type} [Field K] [LinearOrder K] [IsStrictOrderedRing K]

/-! ### Rays do not influence each other -/

/-- The inner loop for one ray, always all rounds. -/
def backRay (sdf : V3 K → K) (r : Ray K) (ls : K) : Nat → Nat → St K → St K
  | 0, _, a => a
  | n + 1, i, a => backRay sdf r ls n (i + 1) (backOne sdf r ls i a)

/-- Sphere tracing of one ray, always all iterations. -/
def rayLoop (c : Cfg K) (sdf : V3 K → K) (r : Ray K) : Nat → St K → St K
  | 0, a => update c.thr a
  | n + 1, a => rayLoop c sdf r n (cut (backRay sdf r c.ls c.backs 0 (move sdf r (update c.thr a))))

theorem backOne_id {sdf : V3 K → K} {r : Ray K} {ls : K} {i : Nat} {a : St K} (h : notProj a = false) :
    backOne sdf r ls i a = a := by
  simp only [notProj, Bool.or_eq_false_iff, decide_eq_false_iff_not] at h
  unfold backOne backS
  rw [if_neg h.1]
  unfold backE
  rw [if_neg h.2]

theorem backRay_id {sdf : V3 K → K} {r : Ray K} {ls : K} {n i : Nat} {a : St K} (h : notProj a = false) :
    backRay sdf r ls n i a = a := by
  induction n generalizing i with
  | zero => rfl
  | succ n ih => rw [backRay, backOne_id h, ih]

theorem backLoop_map (sdf : V3 K → K) (ls : K) (n i : Nat) (l : List (Ray K × St K)) :
    backLoop sdf ls n i l = l.map fun x => (x.1, backRay sdf x.1 ls n i x.2) := by
  induction n generalizing i l with
  | zero => simp [backLoop, backRay]
  | succ n ih =>
    rw [backLoop]
    split_ifs with h
    · rw [ih, List.map_map]
      rfl
    · simp only [List.any_eq_true, not_exists, not_and, Bool.not_eq_true] at h
      conv_lhs => rw [← List.map_id l]
      apply List.map_congr_left
      intro x hx
      rw [backRay_id (h x hx)]
      rfl

/-- What matters of a state. -/
def core (a : St K) : K × K × Bool × Bool := (a.s, a.e, a.us, a.ue)

theorem zeroed_false (thr n : K) : zeroed thr false n = 0 := by
  unfold zeroed
  simp

theorem update_done {thr : K} {a : St K} :
    ((update thr a).us = false → (update thr a).cs = 0) ∧ ((update thr a).ue = false → (update thr a).ce = 0) := by
  have key : ∀ (u : Bool) (n : K), (u && decide (thr < zeroed thr u n)) = false → zeroed thr u n = 0 := by
    intro u n h
    cases u with
    | false => exact zeroed_false _ _
    | true =>
      simp only [Bool.true_and, decide_eq_false_iff_not] at h
      unfold zeroed at h ⊢
      simp only [if_true] at h ⊢
      split_ifs with h1
      · rfl
      · rw [if_neg h1] at h
        exact absurd (not_le.1 h1) h
  exact ⟨key _ _, key _ _⟩

/-- A finished ray stays where it is. -/
theorem step_done {c : Cfg K} {sdf : V3 K → K} {r : Ray K} {a : St K} (h1 : (update c.thr a).us = false)
    (h2 : (update c.thr a).ue = false) :
    core (cut (backRay sdf r c.ls c.backs 0 (move sdf r (update c.thr a)))) = core (update c.thr a) := by
  have h3 := update_done.1 h1
  have h4 := update_done.2 h2
  have hn : notProj (move sdf r (update c.thr a)) = false := by simp [notProj, move, h1, h2]
  rw [backRay_id hn]
  simp [core, cut, move, h1, h2, h3, h4]

theorem update_finished {thr : K} {a : St K} (h1 : a.us = false) (h2 : a.ue = false) :
    core (update thr a) = core a ∧ (update thr a).us = false ∧ (update thr a).ue = false := by
  refine ⟨?_, ?_, ?_⟩ <;> simp [core, update, h1, h2]

theorem rayLoop_done {c : Cfg K} {sdf : V3 K → K} {r : Ray K} (n : Nat) {a : St K} (h1 : a.us = false) (h2 : a.ue = false) :
    core (rayLoop c sdf r n a) = core a := by
  induction n generalizing a with
  | zero => exact (update_finished h1 h2).1
  | succ n ih =>
    rw [rayLoop]
    obtain ⟨hu, h1', h2'⟩ := update_finished (thr := c.thr) h1 h2
    have hb := (step_done (sdf := sdf) (r := r) h1' h2').trans hu
    rw [ih ((congrArg (fun x => x.2.2.1) hb).trans h1) ((congrArg (fun x => x.2.2.2) hb).trans h2), hb]

/-- In a batch, every ray ends with the distances and masks it would have alone. -/
theorem loop_ray (c : Cfg K) (sdf : V3 K → K) (n : Nat) (l : List (Ray K × St K)) :
    (loop c sdf n l).map (fun x => (x.1, core x.2)) = l.map fun x => (x.1, core (rayLoop c sdf x.1 n x.2)) := by
  induction n generalizing l with
  | zero =>
    rw [loop, List.map_map]
    rfl
  | succ n ih =>
    rw [loop]
    split_ifs with h
    · rw [ih, backLoop_map, List.map_map, List.map_map, List.map_map, List.map_map]
      rfl
    · rw [List.map_map]
      apply List.map_congr_left
      intro x hx
      simp only [List.any_eq_true, not_exists, not_and, Bool.not_eq_true, List.mem_map, Prod.forall, Prod.mk.injEq,
        Bool.or_eq_false_iff] at h
      obtain ⟨h1, h2⟩ := h x.1 (update c.thr x.2) ⟨x, hx, rfl, rfl⟩
      simp only [Function.comp]
      rw [rayLoop]
      have hb := step_done (sdf := sdf) (r := x.1) h1 h2
      rw [rayLoop_done n ((congrArg (fun x => x.2.2.1) hb).trans h1) ((congrArg (fun x => x.2.2.2) hb).trans h2), hb]

/-- Whether the loop makes at least one step. -/
def started (c : Cfg K) (n : Nat) (l : List (Ray K × St K)) : Bool :=
  decide (0 < n) && l.any fun x => (update c.thr x.2).us || (update c.thr x.2).ue

theorem backRay_p {sdf : V3 K → K} {r : Ray K} {ls : K} (n i : Nat) {a : St K} (h : a.p = r.at a.s) :
    (backRay sdf r ls n i a).p = r.at (backRay sdf r ls n i a).s := by
  induction n generalizing i a with
  | zero => exact h
  | succ n ih =>
    rw [backRay]
    apply ih
    unfold backOne backS backE
    split_ifs <;> first | exact h | rfl

theorem loop_point_inv (c : Cfg K) (sdf : V3 K → K) (n : Nat) (l : List (Ray K × St K)) (h : ∀ x ∈ l, x.2.p = x.1.at x.2.s) :
    ∀ x ∈ loop c sdf n l, x.2.p = x.1.at x.2.s := by
  induction n generalizing l with
  | zero =>
    rw [loop]
    intro x hx
    obtain ⟨y, hy, rfl⟩ := List.mem_map.1 hx
    exact h y hy
  | succ n ih =>
    rw [loop]
    split_ifs with h1
    · apply ih
      rw [backLoop_map, List.map_map, List.map_map, List.map_map]
      intro x hx
      obtain ⟨y, hy, rfl⟩ := List.mem_map.1 hx
      exact backRay_p _ _ (a := move sdf y.1 (update c.thr y.2)) rfl
    · intro x hx
      obtain ⟨y, hy, rfl⟩ := List.mem_map.1 hx
      exact h y hy

/-- Once a step is made by any ray, all points are those at the distances. -/
theorem loop_started (c : Cfg K) (sdf : V3 K → K) (n : Nat) (l : List (Ray K × St K)) (h : started c n l = true) :
    ∀ x ∈ loop c sdf n l, x.2.p = x.1.at x.2.s := by
  simp only [started, Bool.and_eq_true, decide_eq_true_eq] at h
  obtain ⟨n, rfl⟩ : ∃ m, n = m + 1 := ⟨n - 1, by omega⟩
  rw [loop, if_pos (by rw [List.any_map]; exact h.2)]
  apply loop_point_inv
  rw [backLoop_map, List.map_map, List.map_map, List.map_map]
  intro x hx
  obtain ⟨y, hy, rfl⟩ := List.mem_map.1 hx
  exact backRay_p _ _ (a := move sdf y.1 (update c.thr y.2)) rfl

theorem loop_not_started (c : Cfg K) (sdf : V3 K → K) (n : Nat) (l : List (Ray K × St K)) (h : started c n l = false) :
    loop c sdf n l = l.map fun x => (x.1, update c.thr x.2) := by
  cases n with
  | zero => rfl
  | succ n =>
    simp only [started, Nat.zero_lt_succ, decide_true, Bool.true_and] at h
    rw [loop, if_neg (by rw [List.any_map]; simpa using h)]

/-- A ray traced alone; only the point of a ray that misses the sphere depends on whether the batch made a step. -/
def alone (c : Cfg K) (sdf : V3 K → K) (moved : Bool) (j : Job K) : St K :=
  let a := rayLoop c sdf j.r c.iters (init sdf j.r j.hit j.near j.far)
  { a with p := if moved || j.hit then j.r.at a.s else 0 }

theorem finish_congr {c : Cfg K} {sdf : V3 K → K} {u : Nat → K} {obj hit : Bool} {near far : K} {r : Ray K} {a b : St K}
    (h : core a = core b) (hp : a.p = b.p) : finish c sdf u obj hit near far r a = finish c sdf u obj hit near far r b := by
  simp only [core, Prod.mk.injEq] at h
  obtain ⟨h1, h2, h3, -⟩ := h
  unfold finish sampled
  rw [h1, h2, h3, hp]

/-- `forward` treats every ray by itself. -/
theorem forward_ray (c : Cfg K) (sdf : V3 K → K) (u : Nat → K) (jobs : List (Job K)) :
    forward c sdf u jobs = jobs.map fun j => finish c sdf u j.obj j.hit (if j.hit then j.near else 0) (if j.hit then j.far else 0) j.r
      (alone c sdf (started c c.iters (jobs.map fun j => (j.r, init sdf j.r j.hit j.near j.far))) j) := by
  generalize hl : (jobs.map fun j => (j.r, init sdf j.r j.hit j.near j.far)) = l
  generalize hm : started c c.iters l = m
  have hll : l.length = jobs.length := by rw [← hl]; simp
  have hlen : (loop c sdf c.iters l).length = jobs.length := by
    have := congrArg List.length (loop_ray c sdf c.iters l)
    simpa [hll] using this
  unfold forward
  rw [hl]
  apply List.ext_getElem
  · simp [hlen]
  intro i h1 h2
  simp only [List.getElem_zipWith, List.getElem_map]
  have hi : i < jobs.length := by simpa using h2
  have hi' : i < (loop c sdf c.iters l).length := by omega
  have hc := loop_ray c sdf c.iters l
  have hc' : ((loop c sdf c.iters l)[i].1, core (loop c sdf c.iters l)[i].2) =
      (jobs[i].r, core (rayLoop c sdf jobs[i].r c.iters (init sdf jobs[i].r jobs[i].hit jobs[i].near jobs[i].far))) := by
    have e := List.getElem_of_eq hc (show i < _ by simpa using hi')
    simp only [List.getElem_map] at e
    rw [e]
    simp only [← hl, List.getElem_map]
  have hc1 := congrArg Prod.fst hc'
  have hc2 := congrArg Prod.snd hc'
  simp only at hc1 hc2
  apply finish_congr
  · rw [hc2]
    rfl
  · have hs := congrArg Prod.fst hc2
    simp only [core] at hs
    unfold alone
    simp only
    rw [← hs]
    cases m with
    | true =>
      rw [loop_started c sdf c.iters l hm _ (List.getElem_mem hi'), hc1]
      simp
    | false =>
      have he := loop_not_started c sdf c.iters l hm
      have he' : (loop c sdf c.iters l)[i] = (jobs[i].r, update c.thr (init sdf jobs[i].r jobs[i].hit jobs[i].near jobs[i].far)) := by
        rw [List.getElem_of_eq he hi', List.getElem_map]
        simp only [← hl, List.getElem_map]
      rw [he']
      simp only [update, init, Bool.false_or]
      cases jobs[i].hit <;> rfl

/-! ### Distance functions that are honest along the ray -/

/-- Along a ray, the function changes by no more than the distance. -/
def Honest (f : K → K) : Prop := ∀ s t, |f s - f t| ≤ |s - t|

theorem Honest.le {f : K → K} (h : Honest f) {s t : K} (hst : s ≤ t) : f s - (t - s) ≤ f t ∧ f t ≤ f s + (t - s) := by
  have := h s t
  rw [abs_of_nonpos (by linarith : s - t ≤ 0)] at this
  have := abs_le.1 this
  constructor <;> linarith

/-- What is known between two iterations. -/
structure Inv (f : K → K) (thr near far : K) (a : St K) : Prop where
  lo : near ≤ a.s
  hi : a.e ≤ far
  before : ∀ t, near ≤ t → t < a.s → 0 < f t
  after : ∀ t, a.e < t → t ≤ far → 0 < f t
  ats : near < a.s → 0 ≤ f a.s
  ate : a.e < far → 0 ≤ f a.e
  ns : a.us = true → a.ns = f a.s
  ne : a.ue = true → a.ne = f a.e
  ds : a.us = false → f a.s ≤ thr ∨ a.e ≤ a.s
  de : a.ue = false → f a.e ≤ thr ∨ a.e ≤ a.s
  lt : a.us = true → a.s < a.e ∨ (a.s = near ∧ a.e = far)

theorem zeroed_eq {thr n : K} {u : Bool} (h0 : 0 ≤ thr) (h : (u && decide (thr < zeroed thr u n)) = true) : u = true ∧ zeroed thr u n = n ∧ thr < n := by
  simp only [Bool.and_eq_true, decide_eq_true_eq] at h
  obtain ⟨rfl, h⟩ := h
  unfold zeroed at h ⊢
  simp only [if_true] at h ⊢
  split_ifs with h1
  · rw [if_pos h1] at h
    exact absurd h (not_lt.2 h0)
  · exact ⟨by trivial, rfl, not_le.1 h1⟩

/-- What is known after the head of the loop. -/
structure Post (f : K → K) (thr near far : K) (a : St K) : Prop where
  lo : near ≤ a.s
  hi : a.e ≤ far
  before : ∀ t, near ≤ t → t < a.s → 0 < f t
  after : ∀ t, a.e < t → t ≤ far → 0 < f t
  ats : near < a.s → 0 ≤ f a.s
  ate : a.e < far → 0 ≤ f a.e
  cs : a.us = true → a.cs = f a.s ∧ thr < f a.s
  ce : a.ue = true → a.ce = f a.e ∧ thr < f a.e
  zs : a.us = false → a.cs = 0
  ze : a.ue = false → a.ce = 0
  ds : a.us = false → f a.s ≤ thr ∨ a.e ≤ a.s
  de : a.ue = false → f a.e ≤ thr ∨ a.e ≤ a.s
  lt : a.us = true → a.s < a.e ∨ (a.s = near ∧ a.e = far)

theorem post_update {f : K → K} {thr near far : K} {a : St K} (h : Inv f thr near far a) (h0 : 0 ≤ thr) :
    Post f thr near far (update thr a) where
  lo := h.lo
  hi := h.hi
  before := h.before
  after := h.after
  ats := h.ats
  ate := h.ate
  cs := fun hu => by
    obtain ⟨h1, h2, h3⟩ := zeroed_eq h0 hu
    have := h.ns h1
    exact ⟨h2.trans this, this ▸ h3⟩
  ce := fun hu => by
    obtain ⟨h1, h2, h3⟩ := zeroed_eq h0 hu
    have := h.ne h1
    exact ⟨h2.trans this, this ▸ h3⟩
  zs := update_done.1
  ze := update_done.2
  ds := fun hu => by
    cases hs : a.us with
    | false => exact h.ds hs
    | true =>
      left
      have hz := update_done.1 hu
      have h1 : zeroed thr a.us a.ns = 0 := hz
      have h2 := h.ns hs
      show f a.s ≤ thr
      rw [← h2]
      unfold zeroed at h1
      rw [hs] at h1
      simp only [if_true] at h1
      split_ifs at h1 with h3
      · exact h3
      · rw [h1]; exact h0
  de := fun hu => by
    cases hs : a.ue with
    | false => exact h.de hs
    | true =>
      left
      have hz := update_done.2 hu
      have h1 : zeroed thr a.ue a.ne = 0 := hz
      have h2 := h.ne hs
      show f a.e ≤ thr
      rw [← h2]
      unfold zeroed at h1
      rw [hs] at h1
      simp only [if_true] at h1
      split_ifs at h1 with h3
      · exact h3
      · rw [h1]; exact h0
  lt := fun hu => h.lt (zeroed_eq h0 hu).1

theorem inv_step {sdf : V3 K → K} {r : Ray K} {thr ls near far : K} {backs : Nat} {a : St K}
    (hf : Honest fun t => sdf (r.at t)) (h0 : 0 ≤ thr) (h : Post (fun t => sdf (r.at t)) thr near far a) :
    Inv (fun t => sdf (r.at t)) thr near far (cut (backRay sdf r ls backs 0 (move sdf r a))) := by
  set f := fun t => sdf (r.at t) with hfd
  have cs0 : 0 ≤ a.cs := by
    cases hs : a.us with
    | false => rw [h.zs hs]
    | true => rw [(h.cs hs).1]; linarith [(h.cs hs).2]
  have ce0 : 0 ≤ a.ce := by
    cases hs : a.ue with
    | false => rw [h.ze hs]
    | true => rw [(h.ce hs).1]; linarith [(h.ce hs).2]
  have ps : a.us = true → 0 ≤ f (a.s + a.cs) := by
    intro hs
    have := (hf.le (show a.s ≤ a.s + a.cs by linarith)).1
    have h1 := (h.cs hs).1
    linarith
  have pe : a.ue = true → 0 ≤ f (a.e - a.ce) := by
    intro hs
    have := (hf.le (show a.e - a.ce ≤ a.e by linarith)).2
    have h1 := (h.ce hs).1
    linarith
  have hn : notProj (move sdf r a) = false := by
    simp only [notProj, move, Bool.or_eq_false_iff, decide_eq_false_iff_not, not_lt]
    constructor
    · split_ifs with hs
      · exact decide_eq_false (not_lt.2 (ps hs))
      · exact decide_eq_false (lt_irrefl _)
    · split_ifs with hs
      · exact decide_eq_false (not_lt.2 (pe hs))
      · exact decide_eq_false (lt_irrefl _)
  rw [backRay_id hn]
  have before : ∀ t, near ≤ t → t < a.s + a.cs → 0 < f t := by
    intro t h1 h2
    rcases lt_or_ge t a.s with h3 | h3
    · exact h.before t h1 h3
    · cases hs : a.us with
      | false => rw [h.zs hs] at h2; linarith
      | true =>
        have := (hf.le h3).1
        have h4 := (h.cs hs).1
        linarith
  have after : ∀ t, a.e - a.ce < t → t ≤ far → 0 < f t := by
    intro t h1 h2
    rcases lt_or_ge a.e t with h3 | h3
    · exact h.after t h3 h2
    · cases hs : a.ue with
      | false => rw [h.ze hs] at h1; linarith
      | true =>
        have := (hf.le h3).2
        have h4 := (h.ce hs).1
        linarith
  refine ⟨?_, ?_, before, after, ?_, ?_, ?_, ?_, ?_, ?_, ?_⟩
  · have := h.lo
    simp only [cut, move]; linarith
  · have := h.hi
    simp only [cut, move]; linarith
  · intro h1
    cases hs : a.us with
    | false =>
      have := h.zs hs
      simp only [cut, move, this, add_zero] at h1 ⊢
      exact h.ats h1
    | true => exact ps hs
  · intro h1
    cases hs : a.ue with
    | false =>
      have := h.ze hs
      simp only [cut, move, this, sub_zero] at h1 ⊢
      exact h.ate h1
    | true => exact pe hs
  · intro h1
    simp only [cut, move, Bool.and_eq_true] at h1 ⊢
    rw [if_pos h1.1]
  · intro h1
    simp only [cut, move, Bool.and_eq_true] at h1 ⊢
    rw [if_pos h1.1]
  · intro h1
    simp only [cut, move, Bool.and_eq_false_iff, decide_eq_false_iff_not, not_lt] at h1 ⊢
    rcases h1 with h1 | h1
    · rw [h.zs h1, add_zero]
      rcases h.ds h1 with h2 | h2
      · exact Or.inl h2
      · right; linarith
    · exact Or.inr (not_lt.1 (of_decide_eq_false h1))
  · intro h1
    simp only [cut, move, Bool.and_eq_false_iff, decide_eq_false_iff_not, not_lt] at h1 ⊢
    rcases h1 with h1 | h1
    · rw [h.ze h1, sub_zero]
      rcases h.de h1 with h2 | h2
      · exact Or.inl h2
      · right; linarith
    · exact Or.inr (not_lt.1 (of_decide_eq_false h1))
  · intro h1
    simp only [cut, move, Bool.and_eq_true, decide_eq_true_eq] at h1 ⊢
    exact Or.inl (of_decide_eq_true h1.2)

theorem inv_init {sdf : V3 K → K} {r : Ray K} {thr near far : K} :
    Inv (fun t => sdf (r.at t)) thr near far (init sdf r true near far) := by
  refine ⟨?_, ?_, ?_, ?_, ?_, ?_, ?_, ?_, ?_, ?_, ?_⟩ <;> simp only [init, if_true] <;> try simp
  · intro t h1 h2; linarith
  · intro t h1 h2; linarith

/-- Sphere tracing of a ray between `near` and `far`. -/
theorem trace_post {c : Cfg K} {sdf : V3 K → K} {r : Ray K} (hf : Honest fun t => sdf (r.at t)) (h0 : 0 ≤ c.thr)
    {near far : K} (n : Nat) {a : St K} (h : Inv (fun t => sdf (r.at t)) c.thr near far a) :
    Post (fun t => sdf (r.at t)) c.thr near far (rayLoop c sdf r n a) := by
  induction n generalizing a with
  | zero => exact post_update h h0
  | succ n ih => exact ih (inv_step hf h0 (post_update h h0))

/-- The final state of a ray. -/
def final (c : Cfg K) (sdf : V3 K → K) (r : Ray K) (near far : K) : St K := rayLoop c sdf r c.iters (init sdf r true near far)

/-- Sphere tracing of an honest distance function never passes the surface: the surface lies between the two ends. -/
theorem trace_encloses {c : Cfg K} {sdf : V3 K → K} {r : Ray K} (hf : Honest fun t => sdf (r.at t)) (h0 : 0 ≤ c.thr)
    {near far t : K} (h1 : near ≤ t) (h2 : t ≤ far) (ht : sdf (r.at t) ≤ 0) :
    (final c sdf r near far).s ≤ t ∧ t ≤ (final c sdf r near far).e := by
  have h := trace_post hf h0 c.iters (inv_init (sdf := sdf) (r := r) (thr := c.thr) (near := near) (far := far))
  constructor
  · by_contra hc
    have := h.before t h1 (not_le.1 hc)
    linarith
  · by_contra hc
    have := h.after t (not_le.1 hc) h2
    linarith

/-- A ray with a point inside the object is reported as meeting it or goes to the sampler. -/
theorem trace_no_miss {c : Cfg K} {sdf : V3 K → K} {r : Ray K} (hf : Honest fun t => sdf (r.at t)) (h0 : 0 ≤ c.thr)
    {near far t : K} (hnf : near < far) (h1 : near ≤ t) (h2 : t ≤ far) (ht : sdf (r.at t) < 0) :
    (final c sdf r near far).s < (final c sdf r near far).e := by
  have h := trace_post hf h0 c.iters (inv_init (sdf := sdf) (r := r) (thr := c.thr) (near := near) (far := far))
  obtain ⟨h3, h4⟩ := trace_encloses hf h0 h1 h2 ht.le
  rcases lt_or_eq_of_le (h3.trans h4) with h5 | h5
  · exact h5
  · exfalso
    have hs : (final c sdf r near far).s = t := le_antisymm h3 (by rw [h5]; exact h4)
    have he : (final c sdf r near far).e = t := by rw [← h5]; exact hs
    rcases lt_or_eq_of_le h.lo with h6 | h6
    · have h7 := h.ats h6
      change 0 ≤ sdf (r.at (final c sdf r near far).s) at h7
      rw [hs] at h7
      linarith
    · have h6' : near = (final c sdf r near far).s := h6
      have h7 := h.ate (by change (final c sdf r near far).e < far; rw [he, ← hs, ← h6']; exact hnf)
      change 0 ≤ sdf (r.at (final c sdf r near far).e) at h7
      rw [he] at h7
      linarith

/-- A ray that is finished and reported as meeting the surface: the value is at most the threshold there, and positive
everywhere before. -/
theorem trace_hit {c : Cfg K} {sdf : V3 K → K} {r : Ray K} (hf : Honest fun t => sdf (r.at t)) (h0 : 0 ≤ c.thr)
    {near far : K} (hu : (final c sdf r near far).us = false) (hlt : (final c sdf r near far).s < (final c sdf r near far).e) :
    sdf (r.at (final c sdf r near far).s) ≤ c.thr ∧ near ≤ (final c sdf r near far).s ∧
      (near < (final c sdf r near far).s → 0 ≤ sdf (r.at (final c sdf r near far).s)) ∧
      ∀ t, near ≤ t → t < (final c sdf r near far).s → 0 < sdf (r.at t) := by
  have h := trace_post hf h0 c.iters (inv_init (sdf := sdf) (r := r) (thr := c.thr) (near := near) (far := far))
  refine ⟨?_, h.lo, h.ats, h.before⟩
  rcases h.ds hu with h1 | h1
  · exact h1
  · exact absurd hlt (not_lt.2 h1)

theorem us_false {c : Cfg K} {sdf : V3 K → K} {r : Ray K} (n : Nat) {a : St K} (h : a.us = false) : (rayLoop c sdf r n a).us = false := by
  have hback : ∀ (k i : Nat) (a : St K), (backRay sdf r c.ls k i a).us = a.us := by
    intro k
    induction k with
    | zero => intro i a; rfl
    | succ k ih =>
      intro i a
      rw [backRay, ih]
      unfold backOne backS backE
      split_ifs <;> rfl
  induction n generalizing a with
  | zero => simp [rayLoop, update, h]
  | succ n ih =>
    rw [rayLoop]
    apply ih
    simp [cut, hback, move, update, h]

/-- Every unfinished iteration goes further than the threshold. -/
theorem trace_far {c : Cfg K} {sdf : V3 K → K} {r : Ray K} (hf : Honest fun t => sdf (r.at t)) (h0 : 0 ≤ c.thr)
    {near far : K} (n : Nat) {a : St K} (h : Inv (fun t => sdf (r.at t)) c.thr near far a) (hu : (rayLoop c sdf r n a).us = true) :
    a.s + n * c.thr ≤ (rayLoop c sdf r n a).s := by
  induction n generalizing a with
  | zero => simp [rayLoop, update]
  | succ n ih =>
    rw [rayLoop] at hu ⊢
    have hp := post_update h h0
    have hi := inv_step (ls := c.ls) (backs := c.backs) hf h0 hp
    have h1 := ih hi hu
    have hus : (cut (backRay sdf r c.ls c.backs 0 (move sdf r (update c.thr a)))).us = true := by
      by_contra hc
      have := us_false (c := c) (sdf := sdf) (r := r) n (Bool.not_eq_true _ ▸ hc)
      rw [this] at hu
      exact absurd hu (by simp)
    have hback : ∀ (k i : Nat) (a : St K), (backRay sdf r c.ls k i a).us = a.us := by
      intro k
      induction k with
      | zero => intro i a; rfl
      | succ k ih =>
        intro i a
        rw [backRay, ih]
        unfold backOne backS backE
        split_ifs <;> rfl
    have hup : (update c.thr a).us = true := by
      simp only [cut, hback, Bool.and_eq_true] at hus
      exact hus.1
    have hcs := hp.cs hup
    have hlo : a.s + (update c.thr a).cs ≤ (cut (backRay sdf r c.ls c.backs 0 (move sdf r (update c.thr a)))).s := by
      have hn : notProj (move sdf r (update c.thr a)) = false := by
        have ps : 0 ≤ sdf (r.at ((update c.thr a).s + (update c.thr a).cs)) := by
          have := (hf.le (show (update c.thr a).s ≤ (update c.thr a).s + (update c.thr a).cs by linarith [hcs.1, hcs.2])).1
          have h1 := hcs.1
          linarith
        have pe : (update c.thr a).ue = true → 0 ≤ sdf (r.at ((update c.thr a).e - (update c.thr a).ce)) := by
          intro hs
          have hce := hp.ce hs
          have := (hf.le (show (update c.thr a).e - (update c.thr a).ce ≤ (update c.thr a).e by linarith [hce.1, hce.2])).2
          linarith [hce.1]
        simp only [notProj, move, Bool.or_eq_false_iff]
        constructor
        · split_ifs
          exact decide_eq_false (not_lt.2 ps)
        · split_ifs with hs
          · exact decide_eq_false (not_lt.2 (pe hs))
          · exact decide_eq_false (lt_irrefl _)
      rw [backRay_id hn]
      exact le_refl _
    push_cast
    have h2 : c.thr < (update c.thr a).cs := by rw [hcs.1]; exact hcs.2
    linarith

/-- With enough iterations for the threshold no ray is left for the sampler. -/
theorem trace_finishes {c : Cfg K} {sdf : V3 K → K} {r : Ray K} (hf : Honest fun t => sdf (r.at t)) (h0 : 0 ≤ c.thr)
    {near far : K} (hnf : near < far) (h : far - near ≤ c.iters * c.thr) : (final c sdf r near far).us = false := by
  by_contra hc
  have hu : (final c sdf r near far).us = true := by simpa using hc
  have hi := inv_init (sdf := sdf) (r := r) (thr := c.thr) (near := near) (far := far)
  have h1 := trace_far hf h0 c.iters hi hu
  have h2 := trace_post hf h0 c.iters hi
  change (init sdf r true near far).s + _ ≤ (final c sdf r near far).s at h1
  change Post _ _ _ _ (final c sdf r near far) at h2
  have h3 : (init sdf r true near far).s = near := rfl
  rw [h3] at h1
  have h4 := h2.hi
  rcases h2.lt hu with h5 | ⟨h5, h6⟩
  · linarith
  · have h7 : (c.iters : K) * c.thr ≤ 0 := by linarith
    linarith

/-! ### The sampler -/

theorem argmin_spec (f : Nat → K) (n : Nat) :
    argmin f n ≤ n ∧ (∀ i ≤ n, f (argmin f n) ≤ f i) ∧ ∀ i < argmin f n, f (argmin f n) < f i := by
  induction n with
  | zero => simp [argmin]
  | succ n ih =>
    obtain ⟨h1, h2, h3⟩ := ih
    unfold argmin
    split
    · rename_i hlt
      refine ⟨le_refl _, ?_, ?_⟩
      · intro i hi
        rcases Nat.lt_or_ge i (n + 1) with h | h
        · exact hlt.le.trans (h2 i (by omega))
        · have : i = n + 1 := by omega
          rw [this]
      · intro i hi
        exact lt_of_lt_of_le hlt (h2 i (by omega))
    · rename_i hlt
      refine ⟨by omega, ?_, h3⟩
      intro i hi
      rcases Nat.lt_or_ge i (n + 1) with h | h
      · exact h2 i (by omega)
      · have : i = n + 1 := by omega
        rw [this]
        exact not_lt.1 hlt

theorem sgn_neg {x : K} (h : x < 0) : sgn x = -1 := by unfold sgn; rw [if_pos h]
theorem sgn_nonneg {x : K} (h : 0 ≤ x) : 0 ≤ sgn x := by
  unfold sgn
  rw [if_neg (not_lt.2 h)]
  split_ifs <;> norm_num

/-- The sampler looks for the first negative value. -/
theorem signInd_spec (v : Nat → K) {n : Nat} (hn : 0 < n) :
    signInd v n < n ∧ (∀ i < signInd v n, 0 ≤ v i) ∧ ((∃ i < n, v i < 0) → v (signInd v n) < 0) ∧
      (0 ≤ v (signInd v n) → ∀ i < n, 0 ≤ v i) := by
  obtain ⟨h1, h2, h3⟩ := argmin_spec (fun i => sgn (v i) * ((n : K) - (i : K))) (n - 1)
  have hpos : ∀ i, i < n → (0 : K) < (n : K) - (i : K) := by
    intro i hi
    have : (i : K) < (n : K) := by exact_mod_cast hi
    linarith
  have hex : (∃ i < n, v i < 0) → v (signInd v n) < 0 := by
    rintro ⟨i, hi, hv⟩
    by_contra hc
    have := h2 i (by omega)
    rw [sgn_neg hv] at this
    have h4 : (0 : K) ≤ sgn (v (signInd v n)) * ((n : K) - ((signInd v n : Nat) : K)) :=
      mul_nonneg (sgn_nonneg (not_lt.1 hc)) (hpos _ (by unfold signInd; omega)).le
    have h5 := hpos i hi
    unfold signInd at h4
    linarith
  refine ⟨by unfold signInd; omega, ?_, hex, ?_⟩
  · intro i hi
    by_contra hc
    have hv := not_le.1 hc
    have hi' : i < n := by unfold signInd at hi; omega
    have h4 := h3 i hi
    have h5 := hex ⟨i, hi', hv⟩
    unfold signInd at h5
    rw [sgn_neg hv, sgn_neg h5] at h4
    have h6 : (i : K) < ((signInd v n : Nat) : K) := by exact_mod_cast hi
    unfold signInd at h6
    linarith
  · intro h i hi
    by_contra hc
    have := hex ⟨i, hi, not_le.1 hc⟩
    linarith

theorem lin_mono {n i : Nat} (hi : i < n) : (0 : K) ≤ lin n i ∧ (lin n i : K) ≤ 1 := by
  unfold lin
  split_ifs with h
  · norm_num
  · have h1 : (1 : K) < (n : K) := by exact_mod_cast not_le.1 h
    have h2 : ((i : Nat) : K) ≤ (n : K) - 1 := by
      have : ((i + 1 : Nat) : K) ≤ (n : K) := by exact_mod_cast hi
      push_cast at this
      linarith
    exact ⟨div_nonneg (Nat.cast_nonneg i) (by linarith), (div_le_one (by linarith)).2 h2⟩

theorem zAt_range {lo hi : K} {n i : Nat} (h : lo ≤ hi) (hi' : i < n) : lo ≤ zAt lo hi n i ∧ zAt lo hi n i ≤ hi := by
  obtain ⟨h1, h2⟩ := lin_mono (K := K) hi'
  unfold zAt
  constructor
  · have := mul_nonneg h1 (sub_nonneg.2 h)
    linarith
  · have := mul_le_mul_of_nonneg_right h2 (sub_nonneg.2 h)
    linarith

theorem zAt_succ {lo hi : K} {n i : Nat} (hi' : i + 1 < n) : zAt lo hi n (i + 1) - zAt lo hi n i = (hi - lo) / ((n : K) - 1) := by
  unfold zAt lin
  rw [if_neg (by omega), if_neg (by omega)]
  have h1 : ((n : K) - 1) ≠ 0 := by
    have : (1 : K) < (n : K) := by exact_mod_cast (by omega : 1 < n)
    linarith
  push_cast
  field_simp
  ring

theorem secPred_range {fl fh zl zh : K} (h1 : 0 ≤ fl) (h2 : fh < 0) (h3 : zl ≤ zh) :
    zl ≤ secPred fl fh zl zh ∧ secPred fl fh zl zh ≤ zh := by
  unfold secPred
  have h4 : 0 < fl - fh := by linarith
  have h5 : -fl * (zh - zl) / (fh - fl) = fl * (zh - zl) / (fl - fh) := by
    rw [← neg_sub fl fh, div_neg, neg_mul, neg_div, neg_neg]
  rw [h5]
  constructor
  · have := div_nonneg (mul_nonneg h1 (sub_nonneg.2 h3)) h4.le
    linarith
  · have : fl * (zh - zl) / (fl - fh) ≤ zh - zl := by
      rw [div_le_iff₀ h4]
      nlinarith [mul_nonneg (neg_nonneg.2 h2.le) (sub_nonneg.2 h3)]
    linarith

/-- The secant method keeps a change of sign between its ends, and its answer lies between them. -/
theorem secant_bracket (f : K → K) (n : Nat) {zl zh : K} (h1 : 0 ≤ f zl) (h2 : f zh < 0) (h3 : zl ≤ zh) :
    ∃ a b, zl ≤ a ∧ a ≤ b ∧ b ≤ zh ∧ 0 ≤ f a ∧ f b < 0 ∧ a ≤ secant f n (f zl) (f zh) zl zh ∧
      secant f n (f zl) (f zh) zl zh ≤ b ∧ secant f n (f zl) (f zh) zl zh = secPred (f a) (f b) a b := by
  induction n generalizing zl zh with
  | zero =>
    obtain ⟨h4, h5⟩ := secPred_range h1 h2 h3
    exact ⟨zl, zh, le_refl _, h3, le_refl _, h1, h2, h4, h5, rfl⟩
  | succ n ih =>
    obtain ⟨h4, h5⟩ := secPred_range h1 h2 h3
    rw [secant]
    split_ifs with h6 h7
    · obtain ⟨a, b, e1, e2, e3, e4⟩ := ih h6.le h2 h5
      exact ⟨a, b, h4.trans e1, e2, e3, e4⟩
    · obtain ⟨a, b, e1, e2, e3, e4⟩ := ih h1 h7 h4
      exact ⟨a, b, e1, e2, e3.trans h5, e4⟩
    · exact ih h1 h2 h3

/-- It is exact for a function that is affine. -/
theorem secant_affine {a b : K} (n : Nat) {zl zh : K} (h1 : 0 ≤ a + b * zl) (h2 : a + b * zh < 0) (h3 : zl ≤ zh) :
    a + b * secant (fun t => a + b * t) n (a + b * zl) (a + b * zh) zl zh = 0 := by
  obtain ⟨x, y, -, -, -, e1, e2, -, -, e3⟩ := secant_bracket (fun t => a + b * t) n h1 h2 h3
  rw [e3]
  unfold secPred
  have : (a + b * y) - (a + b * x) ≠ 0 := by intro h; linarith
  field_simp
  ring

/-- Once the estimate is a root, it stays. -/
theorem secant_root (f : K → K) (n : Nat) {fl fh zl zh : K} (h : f (secPred fl fh zl zh) = 0) :
    secant f n fl fh zl zh = secPred fl fh zl zh := by
  induction n with
  | zero => rfl
  | succ n ih => rw [secant, if_neg (by rw [h]; exact lt_irrefl _), if_neg (by rw [h]; exact lt_irrefl _), ih]

/-- What a ray that goes to the sampler gets in evaluation: if any of the samples is negative, the answer lies in the first
interval with a change of sign; otherwise the ray does not meet the surface and gets the sample of smallest value. -/
theorem sampler_spec {c : Cfg K} {sdf : V3 K → K} {r : Ray K} {obj : Bool} {lo hi : K} (hn : 0 < c.nSteps) (ht : c.training = false)
    (hlo : 0 ≤ sdf (r.at lo)) (hlh : lo ≤ hi) :
    ((sampler c sdf r obj lo hi).net = true ↔ ∃ i < c.nSteps, sdf (r.at (zAt lo hi c.nSteps i)) < 0) ∧
    (sampler c sdf r obj lo hi).p = r.at (sampler c sdf r obj lo hi).dist ∧
    lo ≤ (sampler c sdf r obj lo hi).dist ∧ (sampler c sdf r obj lo hi).dist ≤ hi ∧
    ((sampler c sdf r obj lo hi).net = true → ∃ k, k + 1 < c.nSteps ∧ (∀ i ≤ k, 0 ≤ sdf (r.at (zAt lo hi c.nSteps i))) ∧
      sdf (r.at (zAt lo hi c.nSteps (k + 1))) < 0 ∧
      ∃ a b, zAt lo hi c.nSteps k ≤ a ∧ a ≤ (sampler c sdf r obj lo hi).dist ∧ (sampler c sdf r obj lo hi).dist ≤ b ∧
        b ≤ zAt lo hi c.nSteps (k + 1) ∧ 0 ≤ sdf (r.at a) ∧ sdf (r.at b) < 0) ∧
    ((sampler c sdf r obj lo hi).net = false → ∃ k < c.nSteps, (sampler c sdf r obj lo hi).dist = zAt lo hi c.nSteps k ∧
      ∀ i < c.nSteps, sdf (r.at (zAt lo hi c.nSteps k)) ≤ sdf (r.at (zAt lo hi c.nSteps i))) := by
  set v := fun i => sdf (r.at (zAt lo hi c.nSteps i)) with hv
  obtain ⟨h1, h2, h3, h4⟩ := signInd_spec v hn
  set ind := signInd v c.nSteps with hind
  have hv0 : 0 ≤ v 0 := by
    have : zAt lo hi c.nSteps 0 = lo := by
      unfold zAt lin
      split_ifs <;> simp
    rw [hv]
    simp only [this]
    exact hlo
  by_cases hs : v ind < 0
  · obtain ⟨k, hk⟩ : ∃ k, ind = k + 1 := by
      rcases Nat.eq_zero_or_pos ind with h | h
      · rw [h] at hs; exact absurd hs (not_lt.2 hv0)
      · exact ⟨ind - 1, by omega⟩
    have hp : prev c.nSteps ind = k := by unfold prev; rw [if_neg (by omega)]; omega
    have hle : zAt lo hi c.nSteps k ≤ zAt lo hi c.nSteps (k + 1) := by
      have e := zAt_succ (lo := lo) (hi := hi) (n := c.nSteps) (i := k) (by omega)
      have : (0 : K) ≤ (hi - lo) / ((c.nSteps : K) - 1) := by
        apply div_nonneg (sub_nonneg.2 hlh)
        have : (1 : K) ≤ (c.nSteps : K) := by exact_mod_cast hn
        linarith
      linarith
    have hb := secant_bracket (fun t => sdf (r.at t)) c.nSecant (zl := zAt lo hi c.nSteps k) (zh := zAt lo hi c.nSteps (k + 1))
      (h2 k (by omega)) (by rw [hk] at hs; exact hs) hle
    have he : sampler c sdf r obj lo hi = ⟨r.at (secant (fun t => sdf (r.at t)) c.nSecant (v k) (v (k + 1)) (zAt lo hi c.nSteps k)
        (zAt lo hi c.nSteps (k + 1))), true, secant (fun t => sdf (r.at t)) c.nSecant (v k) (v (k + 1)) (zAt lo hi c.nSteps k)
        (zAt lo hi c.nSteps (k + 1))⟩ := by
      show (if (if c.training then decide (v ind < 0) && obj else decide (v ind < 0)) then
        (⟨r.at (secant (fun t => sdf (r.at t)) c.nSecant (v (prev c.nSteps ind)) (v ind) (zAt lo hi c.nSteps (prev c.nSteps ind))
          (zAt lo hi c.nSteps ind)), decide (v ind < 0), secant (fun t => sdf (r.at t)) c.nSecant (v (prev c.nSteps ind)) (v ind)
          (zAt lo hi c.nSteps (prev c.nSteps ind)) (zAt lo hi c.nSteps ind)⟩ : Out K) else _) = _
      rw [ht, decide_eq_true hs, hp, hk]
      rfl
    rw [he]
    obtain ⟨a, b, e1, e2, e3, e4, e5, e6, e7, -⟩ := hb
    refine ⟨⟨fun _ => ⟨ind, h1, hs⟩, fun _ => rfl⟩, rfl, ?_, ?_, ?_, ?_⟩
    · exact (zAt_range hlh (by omega)).1.trans (e1.trans e6)
    · exact (e7.trans e3).trans (zAt_range hlh (by omega)).2
    · intro _
      exact ⟨k, by omega, fun i hi' => h2 i (by omega), by rw [hk] at hs; exact hs, a, b, e1, e6, e7, e3, e4, e5⟩
    · intro h; exact absurd h (by simp)
  · obtain ⟨a1, a2, -⟩ := argmin_spec v (c.nSteps - 1)
    have he : sampler c sdf r obj lo hi = ⟨r.at (zAt lo hi c.nSteps (argmin v (c.nSteps - 1))), false,
        zAt lo hi c.nSteps (argmin v (c.nSteps - 1))⟩ := by
      show (if (if c.training then decide (v ind < 0) && obj else decide (v ind < 0)) then (_ : Out K) else
        ⟨r.at (zAt lo hi c.nSteps (if !(obj && decide (v ind < 0)) then argmin v (c.nSteps - 1) else ind)), decide (v ind < 0),
          zAt lo hi c.nSteps (if !(obj && decide (v ind < 0)) then argmin v (c.nSteps - 1) else ind)⟩) = _
      rw [ht, decide_eq_false hs]
      simp
    rw [he]
    refine ⟨⟨fun h => absurd h (by simp), ?_⟩, rfl, (zAt_range hlh (by omega)).1, (zAt_range hlh (by omega)).2,
      fun h => absurd h (by simp), fun _ => ⟨_, by omega, rfl, fun i hi' => a2 i (by omega)⟩⟩
    rintro ⟨i, hi', hvi⟩
    exact absurd (h3 ⟨i, hi', hvi⟩) hs

/-! ### The whole of `forward` in evaluation -/

/-- The result for a ray that meets the sphere. -/
def evalOut (c : Cfg K) (sdf : V3 K → K) (obj : Bool) (r : Ray K) (near far : K) : Out K :=
  sampled c sdf obj r { final c sdf r near far with p := r.at (final c sdf r near far).s }

theorem forward_eval {c : Cfg K} {sdf : V3 K → K} {u : Nat → K} {jobs : List (Job K)} (ht : c.training = false) (i : Nat) (hi : i < jobs.length) :
    (forward c sdf u jobs)[i]? = some (if jobs[i].hit then evalOut c sdf jobs[i].obj jobs[i].r jobs[i].near jobs[i].far
      else ⟨if started c c.iters (jobs.map fun j => (j.r, init sdf j.r j.hit j.near j.far)) then jobs[i].r.o else 0, false, 0⟩) := by
  rw [forward_ray, List.getElem?_map, List.getElem?_eq_getElem hi, Option.map_some]
  congr 1
  generalize jobs[i] = j
  generalize started c c.iters (jobs.map fun j => (j.r, init sdf j.r j.hit j.near j.far)) = m
  obtain ⟨r, obj, hit, near, far⟩ := j
  unfold finish
  simp only [ht, Bool.not_false, if_true]
  cases hit with
  | true =>
    unfold alone evalOut
    simp only [Bool.or_true, if_true]
    rfl
  | false =>
    have hc := rayLoop_done (c := c) (sdf := sdf) (r := r) c.iters (a := init sdf r false near far) rfl rfl
    simp only [core, Prod.mk.injEq] at hc
    obtain ⟨e1, e2, e3, -⟩ := hc
    unfold alone sampled
    simp only
    generalize rayLoop c sdf r c.iters (init sdf r false near far) = a at *
    have e1' : a.s = 0 := e1
    have e2' : a.e = 0 := e2
    have e3' : a.us = false := e3
    rw [e1', e2', e3']
    cases m with
    | true => simp [Ray.at]
    | false => simp

/-- The meaning of the answer for an honest distance function in evaluation. -/
theorem eval_spec {c : Cfg K} {sdf : V3 K → K} {obj : Bool} {r : Ray K} {near far : K} (hf : Honest fun t => sdf (r.at t))
    (h0 : 0 ≤ c.thr) (hn : 0 < c.nSteps) (ht : c.training = false) (hnf : near < far) :
    (evalOut c sdf obj r near far).p = r.at (evalOut c sdf obj r near far).dist ∧
    ((evalOut c sdf obj r near far).net = true →
      (sdf (r.at (evalOut c sdf obj r near far).dist) ≤ c.thr ∧ near ≤ (evalOut c sdf obj r near far).dist ∧
        ∀ t, near ≤ t → t < (evalOut c sdf obj r near far).dist → 0 < sdf (r.at t)) ∨
      ∃ a b, near ≤ a ∧ a ≤ (evalOut c sdf obj r near far).dist ∧ (evalOut c sdf obj r near far).dist ≤ b ∧ b ≤ far ∧
        0 ≤ sdf (r.at a) ∧ sdf (r.at b) < 0 ∧ (b - a) * ((c.nSteps : K) - 1) ≤ far - near) ∧
    ((evalOut c sdf obj r near far).net = false →
      (∀ t, near ≤ t → t ≤ far → 0 ≤ sdf (r.at t)) ∨
      ∃ lo hi, near ≤ lo ∧ lo < hi ∧ hi ≤ far ∧ (∀ i < c.nSteps, 0 ≤ sdf (r.at (zAt lo hi c.nSteps i))) ∧
        ∀ t, near ≤ t → t ≤ far → (t < lo ∨ hi < t) → 0 < sdf (r.at t)) := by
  have h := trace_post hf h0 c.iters (inv_init (sdf := sdf) (r := r) (thr := c.thr) (near := near) (far := far))
  change Post _ _ _ _ (final c sdf r near far) at h
  unfold evalOut sampled
  simp only
  cases hu : (final c sdf r near far).us with
  | false =>
    simp only [Bool.false_eq_true, if_false]
    refine ⟨by trivial, ?_, ?_⟩
    · intro hl
      have hl := of_decide_eq_true hl
      obtain ⟨e1, e2, e3, e4⟩ := trace_hit hf h0 hu hl
      exact Or.inl ⟨e1, e2, e4⟩
    · intro hl
      have hl := of_decide_eq_false hl
      left
      intro t h1 h2
      by_contra hc
      exact hl (trace_no_miss hf h0 hnf h1 h2 (not_le.1 hc))
  | true =>
    simp only [if_true]
    have hlt : (final c sdf r near far).s < (final c sdf r near far).e := by
      rcases h.lt hu with h1 | ⟨h1, h2⟩
      · exact h1
      · rw [h1, h2]; exact hnf
    have hs := (h.cs hu).2
    obtain ⟨e1, e2, e3, e4, e5, e6⟩ := sampler_spec (obj := obj) hn ht (by linarith) hlt.le
    refine ⟨e2, ?_, ?_⟩
    · intro hnet
      right
      obtain ⟨k, hk, k1, k2, a, b, a1, a2, a3, a4, a5, a6⟩ := e5 hnet
      refine ⟨a, b, ?_, a2, a3, ?_, a5, a6, ?_⟩
      · exact h.lo.trans ((zAt_range hlt.le (by omega)).1.trans a1)
      · exact a4.trans ((zAt_range hlt.le (by omega)).2.trans h.hi)
      · have e := zAt_succ (lo := (final c sdf r near far).s) (hi := (final c sdf r near far).e) hk
        have h1 : (1 : K) < (c.nSteps : K) := by exact_mod_cast (by omega : 1 < c.nSteps)
        have h2 : b - a ≤ ((final c sdf r near far).e - (final c sdf r near far).s) / ((c.nSteps : K) - 1) := by rw [← e]; linarith
        rw [le_div_iff₀ (by linarith)] at h2
        have := h.lo
        have := h.hi
        linarith
    · intro hnet
      right
      refine ⟨_, _, h.lo, hlt, h.hi, ?_, ?_⟩
      · intro i hi
        by_contra hc
        have := e1.2 ⟨i, hi, not_le.1 hc⟩
        rw [this] at hnet
        exact absurd hnet (by simp)
      · rintro t h1 h2 (h3 | h3)
        · exact h.before t h1 h3
        · exact h.after t h3 h2

/-! ### Training -/

/-- A finished ray outside the mask, or inside it but without intersection, that meets the sphere: the sample of smallest
value among random ones; the part before the surface is left out if the network has a surface. -/
theorem finish_minimal {c : Cfg K} {sdf : V3 K → K} {u : Nat → K} {obj : Bool} {near far : K} {r : Ray K} {a : St K}
    (ht : c.training = true) (hn : 0 < c.nSteps) (hu : a.us = false) (ho : obj = false ∨ ¬ a.s < a.e) :
    ∃ k < c.nSteps, (finish c sdf u obj true near far r a).dist =
        u k * (far - (if obj = false ∧ a.s < a.e then a.s else near)) + (if obj = false ∧ a.s < a.e then a.s else near) ∧
      (finish c sdf u obj true near far r a).p = r.at (finish c sdf u obj true near far r a).dist ∧
      (finish c sdf u obj true near far r a).net = decide (a.s < a.e) ∧
      ∀ i < c.nSteps, sdf (r.at (finish c sdf u obj true near far r a).dist) ≤
        sdf (r.at (u i * (far - (if obj = false ∧ a.s < a.e then a.s else near)) + (if obj = false ∧ a.s < a.e then a.s else near))) := by
  set lo := if obj = false ∧ a.s < a.e then a.s else near with hlo
  have hm : finish c sdf u obj true near far r a = ⟨r.at (minimal c sdf r u lo far), decide (a.s < a.e), minimal c sdf r u lo far⟩ := by
    unfold finish sampled
    simp only [ht, hu, Bool.not_true, Bool.false_eq_true, if_false, Bool.not_false, Bool.and_true, Bool.and_false]
    by_cases hs : a.s < a.e
    · have ho' : obj = false := ho.resolve_right (not_not.2 hs)
      subst ho'
      simp only [decide_eq_true hs, hlo]
      simp [hs]
    · cases obj <;> simp only [decide_eq_false hs, hlo] <;> simp [hs]
  rw [hm]
  obtain ⟨h1, h2, -⟩ := argmin_spec (fun i => sdf (r.at (u i * (far - lo) + lo))) (c.nSteps - 1)
  exact ⟨argmin (fun i => sdf (r.at (u i * (far - lo) + lo))) (c.nSteps - 1), by omega, rfl, rfl, rfl, fun i hi => h2 i (by omega)⟩

/-- A ray that misses the sphere gets the point of its line closest to the origin. -/
theorem finish_left_out {c : Cfg K} {sdf : V3 K → K} {u : Nat → K} {obj : Bool} {near far : K} {r : Ray K} {a : St K}
    (ht : c.training = true) (hu : a.us = false) (hs : ¬ a.s < a.e) (hd : V3.normSq r.d = 1) :
    (finish c sdf u obj false near far r a).p = r.at (finish c sdf u obj false near far r a).dist ∧
    (finish c sdf u obj false near far r a).net = false ∧
    ∀ t, V3.normSq (finish c sdf u obj false near far r a).p ≤ V3.normSq (r.at t) := by
  have hm : finish c sdf u obj false near far r a = ⟨r.at (-V3.dot r.d r.o), false, -V3.dot r.d r.o⟩ := by
    unfold finish sampled
    simp only [ht, hu, Bool.not_true, Bool.false_eq_true, if_false, Bool.not_false, Bool.and_true, Bool.and_false, decide_eq_false hs]
    cases obj <;> simp
  rw [hm]
  refine ⟨rfl, rfl, ?_⟩
  intro t
  have e : V3.normSq (r.at t) - V3.normSq (r.at (-V3.dot r.d r.o)) = (t + V3.dot r.d r.o) ^ 2 := by
    simp only [V3.normSq, V3.dot] at hd
    simp only [Ray.at, V3.normSq, V3.dot, V3.add_x, V3.add_y, V3.add_z, V3.smul_x, V3.smul_y, V3.smul_z]
    linear_combination (t ^ 2 - (r.d.x * r.o.x + r.d.y * r.o.y + r.d.z * r.o.z) ^ 2) * hd
  nlinarith [sq_nonneg (t + V3.dot r.d r.o)]

/-! ### The sphere -/

theorem normSq_at {r : Ray K} (hd : V3.normSq r.d = 1) (t rad : K) :
    V3.normSq (r.at t) - rad ^ 2 = (t + V3.dot r.d r.o) ^ 2 - under r rad := by
  simp only [under, V3.normSq, V3.dot] at hd ⊢
  simp only [Ray.at, V3.normSq, V3.dot, V3.add_x, V3.add_y, V3.add_z, V3.smul_x, V3.smul_y, V3.smul_z]
  linear_combination t ^ 2 * hd

/-- The part of a ray inside the sphere, for a direction of length one. -/
theorem sphere_spec {r : Ray ℝ} (hd : V3.normSq r.d = 1) (rad : ℝ) :
    ((sphere r rad).1 = false → ∀ t, rad ^ 2 ≤ V3.normSq (r.at t)) ∧
    0 ≤ (sphere r rad).2.1 ∧ (sphere r rad).2.1 ≤ (sphere r rad).2.2 ∧
    (∀ t, 0 ≤ t → V3.normSq (r.at t) < rad ^ 2 → (sphere r rad).1 = true ∧ (sphere r rad).2.1 < (sphere r rad).2.2 ∧
      (sphere r rad).2.1 ≤ t ∧ t ≤ (sphere r rad).2.2) ∧
    ((sphere r rad).2.1 < (sphere r rad).2.2 → ∀ t, 0 ≤ t →
      (V3.normSq (r.at t) ≤ rad ^ 2 ↔ (sphere r rad).2.1 ≤ t ∧ t ≤ (sphere r rad).2.2)) := by
  have key := fun t => normSq_at hd t rad
  unfold sphere
  by_cases hu : 0 < under r rad
  · rw [if_pos hu]
    have hs := Real.sqrt_pos.2 hu
    have hq := Real.sq_sqrt hu.le
    set q := Real.sqrt (under r rad) with hqd
    set b := V3.dot r.d r.o with hb
    refine ⟨fun h => absurd h (by simp), le_max_right _ _, ?_, ?_, ?_⟩
    · exact max_le_max (by linarith) (le_refl _)
    · intro t ht hn
      have h1 := key t
      have h2 : (t + b) ^ 2 < q ^ 2 := by rw [hq]; linarith
      obtain ⟨h3, h4⟩ := abs_lt.1 (abs_lt_of_sq_lt_sq h2 hs.le)
      refine ⟨rfl, ?_, ?_, ?_⟩
      · apply max_lt
        · exact lt_of_lt_of_le (by linarith) (le_max_left _ _)
        · exact lt_of_lt_of_le (by linarith) (le_max_left _ _)
      · exact max_le (by linarith) ht
      · exact le_trans (by linarith) (le_max_left _ _)
    · intro hlt t ht
      have h1 := key t
      have hf : 0 < q - b := by
        by_contra hc
        rw [max_eq_right (not_lt.1 hc)] at hlt
        exact absurd hlt (not_lt.2 (le_max_right _ _))
      have hf' : max (q - b) 0 = q - b := max_eq_left hf.le
      simp only [hf']
      constructor
      · intro hn
        have h2 : (t + b) ^ 2 ≤ q ^ 2 := by rw [hq]; linarith
        obtain ⟨h3, h4⟩ := abs_le.1 (abs_le_of_sq_le_sq h2 hs.le)
        exact ⟨max_le (by linarith) ht, by linarith⟩
      · rintro ⟨h2, h3⟩
        have h4 := (max_le_iff.1 h2).1
        have h5 : (t + b) ^ 2 ≤ q ^ 2 := sq_le_sq' (by linarith) (by linarith)
        rw [hq] at h5
        linarith
  · rw [if_neg hu]
    refine ⟨?_, le_refl _, le_refl _, ?_, fun h => absurd h (lt_irrefl _)⟩
    · intro _ t
      have := key t
      nlinarith [sq_nonneg (t + V3.dot r.d r.o)]
    · intro t _ hn
      have := key t
      nlinarith [sq_nonneg (t + V3.dot r.d r.o)]

/-- A distance function that changes by no more than the distance is honest along rays with a direction of length one. -/
theorem honest_of_lipschitz {sdf : V3 ℝ → ℝ} (h : ∀ p q, |sdf p - sdf q| ≤ Rot.norm (p - q)) {r : Ray ℝ} (hd : V3.normSq r.d = 1) :
    Honest fun t => sdf (r.at t) := by
  intro s t
  refine (h _ _).trans (le_of_eq ?_)
  unfold Rot.norm
  rw [← Real.sqrt_sq_eq_abs]
  congr 1
  simp only [V3.normSq, V3.dot] at hd
  simp only [Ray.at, V3.normSq, V3.dot, V3.sub_x, V3.sub_y, V3.sub_z, V3.add_x, V3.add_y, V3.add_z, V3.smul_x, V3.smul_y, V3.smul_z]
  linear_combination (s - t) ^ 2 * hd

/-- A Lipschitz function with a zero of a change of sign in between. -/
theorem honest_root {f : ℝ → ℝ} (h : Honest f) {a b : ℝ} (hab : a ≤ b) (ha : 0 ≤ f a) (hb : f b < 0) : ∃ t, a ≤ t ∧ t ≤ b ∧ f t = 0 := by
  have hc : Continuous f := by
    have : LipschitzWith 1 f := by
      apply LipschitzWith.of_dist_le_mul
      intro x y
      simpa [Real.dist_eq] using h x y
    exact this.continuous
  obtain ⟨t, ht, h0⟩ := intermediate_value_Icc' hab hc.continuousOn ⟨hb.le, ha⟩
  exact ⟨t, ht.1, ht.2, h0⟩

/-- Evaluation of `RayTracing` with an object inside the bounding sphere, a Lipschitz distance function and a direction of
length one.  A ray with a mask: the value at the point is at most the threshold and positive before, or there is a point of
the surface within the length of the chord over `n_steps - 1`.  A ray without a mask does not meet the inside of the object,
or all the samples between the two ends of sphere tracing are outside. -/
theorem rayTracing_spec {c : Cfg ℝ} {rad : ℝ} {sdf : V3 ℝ → ℝ} {u : Nat → ℝ} {rays : List (Ray ℝ × Bool)}
    (hL : ∀ p q, |sdf p - sdf q| ≤ Rot.norm (p - q)) (h0 : 0 ≤ c.thr) (hn : 1 < c.nSteps) (ht : c.training = false)
    (hin : ∀ p, sdf p < 0 → V3.normSq p < rad ^ 2) (i : Nat) (hi : i < rays.length) (hd : V3.normSq rays[i].1.d = 1) :
    ∃ o, (rayTracing c rad sdf u rays)[i]? = some o ∧
      (o.net = true → o.p = rays[i].1.at o.dist ∧ 0 ≤ o.dist ∧
        ((sdf o.p ≤ c.thr ∧ ∀ t, (sphere rays[i].1 rad).2.1 ≤ t → t < o.dist → 0 < sdf (rays[i].1.at t)) ∨
        ∃ t, sdf (rays[i].1.at t) = 0 ∧ |o.dist - t| * ((c.nSteps : ℝ) - 1) ≤ (sphere rays[i].1 rad).2.2 - (sphere rays[i].1 rad).2.1)) ∧
      (o.net = false → (∀ t, 0 ≤ t → 0 ≤ sdf (rays[i].1.at t)) ∨
        ∃ lo hi, lo < hi ∧ (∀ k < c.nSteps, 0 ≤ sdf (rays[i].1.at (zAt lo hi c.nSteps k))) ∧
          ∀ t, 0 ≤ t → (t < lo ∨ hi < t) → 0 ≤ sdf (rays[i].1.at t)) := by
  obtain ⟨s1, s2, s3, s4, s5⟩ := sphere_spec hd rad
  have hH := honest_of_lipschitz hL hd
  have hout : ∀ t, 0 ≤ t → sdf (rays[i].1.at t) < 0 → (sphere rays[i].1 rad).1 = true ∧ (sphere rays[i].1 rad).2.1 < (sphere rays[i].1 rad).2.2 ∧
      (sphere rays[i].1 rad).2.1 ≤ t ∧ t ≤ (sphere rays[i].1 rad).2.2 := fun t h1 h2 => s4 t h1 (hin _ h2)
  have hr : (rayTracing c rad sdf u rays)[i]? = _ := forward_eval (c := c) (sdf := sdf) (u := u) (jobs := rays.map (job rad)) ht i (by simpa using hi)
  rw [hr]
  simp only [List.getElem_map]
  refine ⟨_, rfl, ?_⟩
  have hjr : (job rad rays[i]).r = rays[i].1 := rfl
  have hjh : (job rad rays[i]).hit = (sphere rays[i].1 rad).1 := rfl
  have hjn : (job rad rays[i]).near = (sphere rays[i].1 rad).2.1 := rfl
  have hjf : (job rad rays[i]).far = (sphere rays[i].1 rad).2.2 := rfl
  rw [hjr, hjh, hjn, hjf]
  cases hh : (sphere rays[i].1 rad).1 with
  | false =>
    simp only [Bool.false_eq_true, if_false]
    refine ⟨fun h => absurd h (by simp), fun _ => Or.inl ?_⟩
    intro t h1
    by_contra hc
    have := (hout t h1 (not_le.1 hc)).1
    rw [hh] at this
    exact absurd this (by simp)
  | true =>
    simp only [if_true]
    rcases lt_or_eq_of_le s3 with hlt | heq
    · obtain ⟨e1, e2, e3⟩ := eval_spec (obj := (job rad rays[i]).obj) hH h0 (by omega : 0 < c.nSteps) ht hlt
      generalize evalOut c sdf (job rad rays[i]).obj rays[i].1 (sphere rays[i].1 rad).2.1 (sphere rays[i].1 rad).2.2 = o at *
      constructor
      · intro hnet
        refine ⟨e1, ?_, ?_⟩
        · rcases e2 hnet with ⟨-, g, -⟩ | ⟨a, b, g1, g2, -⟩
          · exact s2.trans g
          · exact s2.trans (g1.trans g2)
        · rcases e2 hnet with ⟨g1, g2, g3⟩ | ⟨a, b, g1, g2, g3, g4, g5, g6, g7⟩
          · left
            rw [e1]
            exact ⟨g1, g3⟩
          · right
            obtain ⟨t, t1, t2, t3⟩ := honest_root hH (g2.trans g3) g5 g6
            refine ⟨t, t3, ?_⟩
            have h1 : (1 : ℝ) < (c.nSteps : ℝ) := by exact_mod_cast hn
            have h2 : |o.dist - t| ≤ b - a := abs_le.2 ⟨by linarith, by linarith⟩
            have := mul_le_mul_of_nonneg_right h2 (by linarith : (0 : ℝ) ≤ (c.nSteps : ℝ) - 1)
            linarith
      · intro hnet
        rcases e3 hnet with g | ⟨lo, hi', g1, g2, g3, g4, g5⟩
        · left
          intro t h1
          by_contra hc
          obtain ⟨-, -, k1, k2⟩ := hout t h1 (not_le.1 hc)
          exact hc (g t k1 k2)
        · right
          refine ⟨lo, hi', g2, g4, ?_⟩
          intro t h1 h2
          by_contra hc
          obtain ⟨-, -, k1, k2⟩ := hout t h1 (not_le.1 hc)
          exact hc (g5 t k1 k2 h2).le
    · -- the sphere lies behind the camera
      have hpos : ∀ t, 0 ≤ t → 0 ≤ sdf (rays[i].1.at t) := by
        intro t h1
        by_contra hc
        obtain ⟨-, k, -⟩ := hout t h1 (not_le.1 hc)
        exact absurd k (by rw [heq]; exact lt_irrefl _)
      have hp := trace_post hH h0 c.iters (inv_init (sdf := sdf) (r := rays[i].1) (thr := c.thr) (near := (sphere rays[i].1 rad).2.1)
        (far := (sphere rays[i].1 rad).2.2))
      refine ⟨?_, fun _ => Or.inl hpos⟩
      intro hnet
      exfalso
      change Post _ _ _ _ (final c sdf rays[i].1 (sphere rays[i].1 rad).2.1 (sphere rays[i].1 rad).2.2) at hp
      have hlo := hp.lo
      have hhi := hp.hi
      unfold evalOut sampled at hnet
      simp only at hnet
      cases hu : (final c sdf rays[i].1 (sphere rays[i].1 rad).2.1 (sphere rays[i].1 rad).2.2).us with
      | false =>
        simp only [hu, Bool.false_eq_true, if_false] at hnet
        have := of_decide_eq_true hnet
        linarith
      | true =>
        simp only [hu, if_true] at hnet
        rcases hp.lt hu with h1 | ⟨h1, h2⟩
        · linarith
        · rw [h1, h2, ← heq] at hnet
          obtain ⟨k, -, hk⟩ := (sampler_spec (obj := (job rad rays[i]).obj) (by omega : 0 < c.nSteps) ht (hpos _ s2) (le_refl _)).1.1 hnet
          have hz : zAt (sphere rays[i].1 rad).2.1 (sphere rays[i].1 rad).2.1 c.nSteps k = (sphere rays[i].1 rad).2.1 := by
            unfold zAt
            rw [sub_self, mul_zero, add_zero]
          rw [hz] at hk
          exact absurd (hpos _ s2) (not_le.2 hk)

/-! ### The renderer -/

/-- The mask of a ray without a surface is one if no ray of the batch has a surface, and the soft value otherwise. -/
theorem masks_spec (soft : K → K) (sdf : V3 K → K) (train : Bool) (l : List (Ray K × Bool × Out K)) (i : Nat) (hi : i < l.length) :
    (masks soft sdf train l)[i]? = some (if surfaceMask train l[i].2.1 l[i].2.2 = true ∨ ∀ x ∈ l, surfaceMask train x.2.1 x.2.2 = false then 1
      else soft (sdf (l[i].1.at l[i].2.2.dist))) := by
  unfold masks
  by_cases hall : ∀ x ∈ l, surfaceMask train x.2.1 x.2.2 = false
  · rw [if_pos (by simpa using hall), if_pos (Or.inr hall), List.getElem?_map, List.getElem?_eq_getElem hi, Option.map_some]
  · rw [if_neg (by simpa using hall), List.getElem?_map, List.getElem?_eq_getElem hi, Option.map_some]
    by_cases hs : surfaceMask train l[i].2.1 l[i].2.2 = true
    · rw [if_pos hs, if_pos (Or.inl hs)]
    · rw [if_neg hs, if_neg (by simp only [hall, or_false]; exact hs)]

/-- A picture that sees nothing is all foreground. -/
theorem masks_empty (soft : K → K) (sdf : V3 K → K) (l : List (Ray K × Bool × Out K)) (h : ∀ x ∈ l, x.2.2.net = false) :
    masks soft sdf false l = List.replicate l.length 1 := by
  unfold masks
  rw [if_pos (by simpa [surfaceMask] using h)]
  induction l with
  | nil => rfl
  | cons a l ih =>
    rw [List.map_cons, ih (fun x hx => h x (List.mem_cons_of_mem _ hx)), List.length_cons, List.replicate_succ]

/-- `_sample_network` gives the distance itself, with the derivative of the true intersection: if `root θ` is where the ray
meets the surface of the parameters `θ`, both have the same derivative, as long as the slope along the ray is at least `eps`. -/
theorem sampleDist_implicit {F : ℝ × ℝ → ℝ} {F' : ℝ × ℝ →L[ℝ] ℝ} {root : ℝ → ℝ} {root' θ eps : ℝ}
    (hF : HasFDerivAt F F' (θ, root θ)) (hroot : HasDerivAt root root' θ) (h0 : ∀ x, F (x, root x) = 0)
    (hs : eps ≤ |F' (0, 1)|) (he : 0 < eps) :
    sampleDist eps (root θ) (F (θ, root θ)) (F' (0, 1)) (F (θ, root θ)) = root θ ∧
    HasDerivAt (fun x => sampleDist eps (root θ) (F (θ, root θ)) (F' (0, 1)) (F (x, root θ))) root' θ := by
  constructor
  · unfold sampleDist
    rw [sub_self, zero_div, sub_zero]
  · have hne : F' (0, 1) ≠ 0 := by
      intro h
      rw [h, abs_zero] at hs
      linarith
    have hden : max |F' (0, 1)| eps * (if 0 ≤ F' (0, 1) then 1 else -1) = F' (0, 1) := by
      rw [max_eq_left hs]
      split_ifs with h
      · rw [mul_one, abs_of_nonneg h]
      · rw [abs_of_neg (not_le.1 h)]; ring
    have hpath : HasDerivAt (fun x => F (x, root x)) (F' (1, root')) θ :=
      hF.comp_hasDerivAt θ ((hasDerivAt_id θ).prodMk hroot)
    have hz : F' (1, root') = 0 := by
      have : (fun x => F (x, root x)) = fun _ => (0 : ℝ) := funext h0
      rw [this] at hpath
      exact hpath.unique (hasDerivAt_const θ 0)
    have hsplit : F' (1, root') = F' (1, 0) + root' * F' (0, 1) := by
      have : ((1 : ℝ), root') = (1, 0) + root' • ((0 : ℝ), (1 : ℝ)) := by simp
      rw [this, map_add, map_smul, smul_eq_mul]
    have hx : HasDerivAt (fun x => F (x, root θ)) (F' (1, 0)) θ :=
      hF.comp_hasDerivAt θ ((hasDerivAt_id θ).prodMk (hasDerivAt_const θ (root θ)))
    have hd := ((hx.sub_const (F (θ, root θ))).div_const (F' (0, 1))).const_sub (root θ)
    have hval : -(F' (1, 0) / F' (0, 1)) = root' := by
      rw [hz] at hsplit
      field_simp
      linarith
    rw [hval] at hd
    refine hd.congr_of_eventuallyEq (Filter.Eventually.of_forall fun x => ?_)
    unfold sampleDist
    rw [hden]

/-! ### Examples -/

def exCfg : Cfg ℚ := ⟨1 / 1000, 1 / 2, 1, 10, 5, 3, false⟩
def exRay : Ray ℚ := ⟨⟨0, 0, 0⟩, ⟨0, 0, 1⟩⟩

/-- The distance to the plane `z = 2`, positive on this side. -/
def exPlane (p : V3 ℚ) : ℚ := 2 - p.z

example : forward exCfg exPlane (fun _ => 0) [⟨exRay, true, true, 0, 5⟩] = [⟨⟨0, 0, 2⟩, true, 2⟩] := by decide +kernel

example : Honest fun t => exPlane (exRay.at t) := by
  intro s t
  have : exPlane (exRay.at s) - exPlane (exRay.at t) = -(s - t) := by simp [exPlane, exRay, Ray.at]
  rw [this, abs_neg]

/-- Half the distance: ten iterations are not enough, and the sampler with the secant method finishes the work. -/
example : forward exCfg (fun p => exPlane p / 8) (fun _ => 0) [⟨exRay, true, true, 0, 5⟩] = [⟨⟨0, 0, 2⟩, true, 2⟩] := by decide +kernel

/-- A slab of thickness 1/5 at `z = 2`, with twice the distance: sphere tracing jumps over it from both sides. -/
def exSlab (p : V3 ℚ) : ℚ := |p.z - 2| - 1 / 10

theorem scaled_misses : ∃ sdf : V3 ℚ → ℚ, sdf (exRay.at 2) < 0 ∧
    forward exCfg (fun p => 2 * sdf p) (fun _ => 0) [⟨exRay, true, true, 0, 3⟩] = [⟨⟨0, 0, 19 / 5⟩, false, 19 / 5⟩] ∧
    (forward exCfg sdf (fun _ => 0) [⟨exRay, true, true, 0, 3⟩]).map (·.net) = [true] :=
  ⟨exSlab, by decide +kernel, by decide +kernel, by decide +kernel⟩

/-- The point of a ray that misses the sphere is the origin of the world when it is alone, and the camera beside a ray that
makes a step. -/
theorem miss_point : ∃ j k : Job ℚ, (forward exCfg exPlane (fun _ => 0) [j]).map (·.p) = [⟨0, 0, 0⟩] ∧
    (forward exCfg exPlane (fun _ => 0) [j, k]).map (·.p) = [⟨3, 0, 0⟩, ⟨0, 0, 2⟩] :=
  ⟨⟨⟨⟨3, 0, 0⟩, ⟨0, 0, 1⟩⟩, true, false, 0, 0⟩, ⟨exRay, true, true, 0, 5⟩, by decide +kernel, by decide +kernel⟩

/-- The mask of a ray that sees nothing depends on the other rays. -/
theorem mask_depends (soft : ℚ → ℚ) : ∃ x y : Ray ℚ × Bool × Out ℚ, masks soft exPlane false [x] = [1] ∧
    masks soft exPlane false [x, y] = [soft 2, 1] :=
  ⟨(⟨⟨3, 0, 0⟩, ⟨0, 0, 1⟩⟩, true, ⟨0, false, 0⟩), (exRay, true, ⟨⟨0, 0, 2⟩, true, 2⟩), rfl, by
    simp [masks, surfaceMask, exPlane, Ray.at]⟩

/-- In training, a ray outside the mask gets the smallest of the random samples. -/
example : forward { exCfg with training := true } exSlab (fun i => [1 / 2, 3 / 5, 1 / 10, 1, 0].getD i 0)
    [⟨exRay, false, true, 0, 3⟩] = [⟨⟨0, 0, 201 / 100⟩, true, 201 / 100⟩] := by decide +kernel

/-- A root that moves with the parameter: `F (θ, t) = t - θ`. -/
example : HasDerivAt (fun x => sampleDist (1 / 10000) (3 : ℝ) 0 1 (3 - x)) 1 3 := by
  have h := (sampleDist_implicit (F := fun p : ℝ × ℝ => p.2 - p.1) (F' := ContinuousLinearMap.snd ℝ ℝ ℝ - ContinuousLinearMap.fst ℝ ℝ ℝ)
    (root := fun x => x) (root' := 1) (θ := 3) (eps := 1 / 10000)
    (by exact (hasFDerivAt_snd).sub hasFDerivAt_fst) (hasDerivAt_id 3) (by simp) (by norm_num) (by norm_num)).2
  simpa using h

end P3D.SphereTrace
