/-
C05, C06: every history of accessor calls and updates on a `Meshes` object behaves as the abstract
batch does.  The properties are stated against `MeshesSpec`, which has no caches.
-/
import Verif.MeshesCtor

namespace P3D.Meshes

open P3D.StructUtils

variable {P K A E L : Type}

/-- The calls a client can make.  `Bool` on `updatePadded` / `clone`: go on with the returned object
(`true`) or with `self` (`false`). -/
inductive Op (P K : Type) where
  | vertsList | facesList | vertsPadded | facesPadded | packed | padToPacked
  | numVerts | numFaces | edges | areas | vnormals | lap
  | offset (d : Offset P)
  | scale (k : List K)
  | updatePadded (nv : List (List P)) (new : Bool)
  | clone (new : Bool)

/-- What a call returns. -/
inductive Out (P A E L : Type) where
  | verts (l : List (List P))
  | faces (l : List (List Face))
  | vpad (l : Option (List (List P)))
  | fpad (l : Option (List (List Face)))
  | packed (p : Option (PackedView P))
  | idx (l : List Nat)
  | edges (e : Option E)
  | areas (a : Option A)
  | normals (n : Option (List P))
  | lap (l : Option L)
  | unit

/-- One call, in terms of the modelled methods (`Verif/Meshes.lean`). -/
def run (ops : Ops P K A E L) (op : Op P K) (s : State P A E L) :
    Except Err (Out P A E L × State P A E L) :=
  match op with
  | .vertsList => (getVertsList s).map (fun r => (.verts r.1, r.2))
  | .facesList => (getFacesList s).map (fun r => (.faces r.1, r.2))
  | .vertsPadded => (getVertsPadded ops.zero s).map (fun r => (.vpad r.1, r.2))
  | .facesPadded => (getFacesPadded ops.zero s).map (fun r => (.fpad r.1, r.2))
  | .packed => (getPacked s).map (fun r => (.packed r.1, r.2))
  | .padToPacked => .ok (.idx (getPadToPacked s).1, (getPadToPacked s).2)
  | .numVerts => .ok (.idx s.numVerts, s)
  | .numFaces => .ok (.idx s.numFaces, s)
  | .edges => (getEdges ops s).map (fun r => (.edges r.1, r.2))
  | .areas => (getAreas ops s).map (fun r => (.areas r.1, r.2))
  | .vnormals => (getVNormals ops s).map (fun r => (.normals r.1, r.2))
  | .lap => (getLap ops s).map (fun r => (.lap r.1, r.2))
  | .offset d => (offsetVerts ops d s).map (fun r => (.unit, r))
  | .scale k => (scaleVerts ops k s).map (fun r => (.unit, r))
  | .updatePadded nv new =>
      (updatePadded ops nv s).map (fun r => (.unit, if new then r.1 else r.2))
  | .clone new => (clone s).map (fun r => (.unit, if new then r.1 else r.2))

/-- A history of calls. -/
def runAll (ops : Ops P K A E L) : List (Op P K) → State P A E L →
    Except Err (List (Out P A E L) × State P A E L)
  | [], s => .ok ([], s)
  | op :: h, s => do
    let (o, s) ← run ops op s
    let (os, s) ← runAll ops h s
    .ok (o :: os, s)

/-- Specification of the effect of a call on the batch: accessors have none. -/
noncomputable def Abs.next (ops : Ops P K A E L) (op : Op P K) (a : Abs P) : Abs P :=
  match op with
  | .offset (.vec t) => a.translate ops t
  | .offset (.full d) => a.offset ops d
  | .scale k => a.scale ops k
  | .updatePadded nv true => a.replacePadded nv
  | _ => a

/-- Specification of the result of a call on the batch `a`. -/
def Abs.Returns (ops : Ops P K A E L) (a : Abs P) : Op P K → Out P A E L → Prop
  | .vertsList, o => o = .verts a.verts
  | .facesList, o => o = .faces a.faces
  | .vertsPadded, o => o = .vpad (some a.vertsPadded)
  | .facesPadded, o => o = .fpad (some a.facesPadded)
  | .packed, o => o = .packed (some a.packed)
  | .padToPacked, o => o = .idx a.padToPacked
  | .numVerts, o => o = .idx (a.verts.map List.length)
  | .numFaces, o => o = .idx (a.faces.map List.length)
  | .edges, o => o = .edges (some (a.edges ops))
  | .areas, o => o = .areas (some (a.areas ops))
  | .vnormals, o => ∃ n, o = .normals (some n) ∧ ∀ v, a.vnormals ops = some v → n = v
  | .lap, o => o = .lap (some (a.lap ops))
  | _, o => o = .unit

/-- Arguments the API accepts in the current batch. -/
def Abs.Accepts (a : Abs P) : Op P K → Prop
  | .offset (.full d) => d.length = a.vertsPacked.length
  | .scale k => a.verts.length ≤ k.length
  | .updatePadded nv _ => nv.length = a.verts.length ∧ ∀ r ∈ nv, r.length = a.maxVerts
  | _ => True

/-- All arguments of a history are acceptable at the time of the call. -/
def Abs.AcceptsAll (ops : Ops P K A E L) : List (Op P K) → Abs P → Prop
  | [], _ => True
  | op :: h, a => a.Accepts op ∧ AcceptsAll ops h (a.next ops op)

/-- The results expected from a history. -/
def Abs.ReturnsAll (ops : Ops P K A E L) : List (Op P K) → Abs P → List (Out P A E L) → Prop
  | [], _, os => os = []
  | op :: h, a, os => ∃ o os', os = o :: os' ∧ a.Returns ops op o ∧
      ReturnsAll ops h (a.next ops op) os'

theorem map_ok' {X Y : Type} {e : Except Err X} {x : X} (f : X → Y) (h : e = .ok x) :
    e.map f = .ok (f x) := by rw [h]; rfl

/-- One call refines the specification. -/
theorem run_refines {ops : Ops P K A E L} (ht : TransInv ops) {a : Abs P} {s : State P A E L}
    (h : Inv ops a s) (op : Op P K) (hop : a.Accepts op) :
    ∃ o s', run ops op s = .ok (o, s') ∧ a.Returns ops op o ∧ Inv ops (a.next ops op) s' := by
  cases op with
  | vertsList =>
    obtain ⟨s', e, i, -⟩ := inv_getVertsList h
    exact ⟨_, _, map_ok' _ e, rfl, i⟩
  | facesList =>
    obtain ⟨s', e, i, -⟩ := inv_getFacesList h
    exact ⟨_, _, map_ok' _ e, rfl, i⟩
  | vertsPadded =>
    obtain ⟨s', e, i, hv, -⟩ := inv_computePadded h
    have e2 : getVertsPadded ops.zero s = .ok (s'.vertsPadded, s') := by
      simp [getVertsPadded, e, bind, Except.bind]
    refine ⟨_, _, map_ok' _ e2, ?_, i⟩
    rw [hv]; rfl
  | facesPadded =>
    obtain ⟨s', e, i, -, hv, -⟩ := inv_computePadded h
    have e2 : getFacesPadded ops.zero s = .ok (s'.facesPadded, s') := by
      simp [getFacesPadded, e, bind, Except.bind]
    refine ⟨_, _, map_ok' _ e2, ?_, i⟩
    rw [hv]; rfl
  | packed =>
    obtain ⟨s', e, i, hv, -⟩ := inv_computePacked h
    have e2 : getPacked s = .ok (s'.packed, s') := by
      simp [getPacked, e, bind, Except.bind]
    refine ⟨_, _, map_ok' _ e2, ?_, i⟩
    rw [hv]; rfl
  | padToPacked =>
    obtain ⟨s', e, i, -⟩ := inv_getPadToPacked h
    refine ⟨_, _, rfl, ?_, ?_⟩
    · rw [e]; rfl
    · rw [e]; exact i
  | numVerts => exact ⟨_, _, rfl, by rw [h.hnv]; rfl, h⟩
  | numFaces => exact ⟨_, _, rfl, by rw [h.hnf]; rfl, h⟩
  | edges =>
    obtain ⟨s', e, i, -⟩ := inv_getEdges h
    exact ⟨_, _, map_ok' _ e, rfl, i⟩
  | areas =>
    obtain ⟨s', e, i, hv⟩ := inv_computeAreas false h
    have e2 : getAreas ops s = .ok (s'.areas, s') := by
      simp [getAreas, e, bind, Except.bind]
    refine ⟨_, _, map_ok' _ e2, ?_, i⟩
    rw [hv]; rfl
  | vnormals =>
    obtain ⟨s', e, i, hs, hv⟩ := inv_computeVNormals h
    have e2 : getVNormals ops s = .ok (s'.vnormals, s') := by
      simp [getVNormals, e, bind, Except.bind]
    refine ⟨_, _, map_ok' _ e2, ?_, i⟩
    obtain ⟨n, hn⟩ := Option.isSome_iff_exists.mp hs
    refine ⟨n, by rw [hn], fun v hvv => ?_⟩
    have := hv v hvv
    rw [hn] at this
    exact Option.some.inj this
  | lap =>
    obtain ⟨s', e, i⟩ := inv_getLap h
    exact ⟨_, _, map_ok' _ e, rfl, i⟩
  | offset d =>
    cases d with
    | vec t =>
      obtain ⟨s', e, i⟩ := inv_offset_vec ht h t
      exact ⟨_, _, map_ok' _ e, rfl, i⟩
    | full d =>
      obtain ⟨s', e, i⟩ := inv_offset_full h d hop
      exact ⟨_, _, map_ok' _ e, rfl, i⟩
  | scale k =>
    obtain ⟨s', e, i⟩ := inv_scale h k hop
    exact ⟨_, _, map_ok' _ e, rfl, i⟩
  | updatePadded nv b =>
    obtain ⟨n, s', e, i1, i2⟩ := inv_updatePadded h nv hop.1 hop.2
    refine ⟨_, _, map_ok' _ e, by cases b <;> rfl, ?_⟩
    cases b
    · exact i2
    · exact i1
  | clone b =>
    obtain ⟨c, s', e, i1, i2⟩ := inv_clone h
    refine ⟨_, _, map_ok' _ e, by cases b <;> rfl, ?_⟩
    cases b
    · exact i2
    · exact i1

theorem runAll_refines {ops : Ops P K A E L} (ht : TransInv ops) (hist : List (Op P K)) :
    ∀ {a : Abs P} {s : State P A E L}, Inv ops a s → Abs.AcceptsAll ops hist a →
    ∃ os s', runAll ops hist s = .ok (os, s') ∧ Abs.ReturnsAll ops hist a os := by
  induction hist with
  | nil => intro a s _ _; exact ⟨[], s, rfl, rfl⟩
  | cons op hs ih =>
    intro a s h hacc
    obtain ⟨o, s1, e1, r1, i1⟩ := run_refines ht h op hacc.1
    obtain ⟨os, s2, e2, r2⟩ := ih i1 hacc.2
    refine ⟨o :: os, s2, ?_, o, os, rfl, r1, r2⟩
    simp [runAll, e1, e2, bind, Except.bind]

/-- **C05/C06.** Any history of accessor calls, offsets, scalings, padded replacements and clones on
an object built from lists (at least one mesh with a vertex and a face; faces with a negative index
are dropped, as documented) succeeds, and each call returns exactly the corresponding view of the
current batch, whatever was cached before. -/
theorem meshes_list_history {ops : Ops P K A E L} (ht : TransInv ops)
    (verts : List (List P)) (faces : List (List Face)) (hlen : faces.length = verts.length)
    (hne : ∃ i, ∃ (h : i < verts.length), verts[i] ≠ [] ∧
      (faces[i]'(by omega)).filter Face.real ≠ [])
    (hist : List (Op P K))
    (hacc : Abs.AcceptsAll ops hist
      (Abs.ofLists ops.zero verts (faces.map (fun f => f.filter Face.real)))) :
    ∃ os s', runAll ops hist (ofList verts faces : State P A E L) = .ok (os, s') ∧
      Abs.ReturnsAll ops hist
        (Abs.ofLists ops.zero verts (faces.map (fun f => f.filter Face.real))) os :=
  runAll_refines ht hist (inv_ofList ops verts faces hlen hne) hacc

/-- **C05/C06**, objects built from padded tensors. -/
theorem meshes_padded_history {ops : Ops P K A E L} (ht : TransInv ops)
    (w : Nat) (verts : List (List P)) (faces : List (List Face))
    (hlen : faces.length = verts.length) (hw : 0 < w) (hrow : ∀ r ∈ verts, r.length = w)
    (hpad : ∀ r ∈ faces, ∀ f ∈ r.dropWhile Face.real, Face.real f = false)
    (hne : ∃ r ∈ faces, r.takeWhile Face.real ≠ [])
    (hist : List (Op P K)) (hacc : Abs.AcceptsAll ops hist (Abs.ofPadded verts faces)) :
    ∃ s : State P A E L, ofPadded w verts faces = .ok s ∧
      ∃ os s', runAll ops hist s = .ok (os, s') ∧
        Abs.ReturnsAll ops hist (Abs.ofPadded verts faces) os := by
  have hrise : (faces.map (fun r => r.map Face.real)).any hasRise = false := by
    rw [List.any_map, List.any_eq_false]
    intro r hr
    have := hpad r hr
    rw [Bool.not_eq_true]
    simp only [Function.comp]
    clear hr
    induction r with
    | nil => rfl
    | cons f l ih =>
      by_cases hf : Face.real f = true
      · have h2 : ∀ g ∈ l.dropWhile Face.real, Face.real g = false := by
          simpa [List.dropWhile_cons, hf] using this
        cases l with
        | nil => rfl
        | cons g l' =>
          have := ih h2
          simp only [List.map_cons, hasRise, hf] at this ⊢
          simpa using this
      · have h2 : ∀ g ∈ l, Face.real g = false := by
          intro g hg
          exact this g (by simp [hf, hg])
        have h3 : ∀ b ∈ l.map Face.real, b = false := by simpa using h2
        have h4 : ∀ m : List Bool, (∀ b ∈ m, b = false) → hasRise (false :: m) = false := by
          intro m
          induction m with
          | nil => intro _; rfl
          | cons b m ihm =>
            intro hb
            have := hb b (by simp)
            subst this
            simp only [hasRise, Bool.not_false, Bool.and_false, Bool.false_or]
            exact ihm (fun c hc => hb c (by simp [hc]))
        rw [List.map_cons, Bool.eq_false_iff.mpr hf]
        exact h4 _ h3
  obtain ⟨s, e, i⟩ := inv_ofPadded (L := L) (E := E) (A := A) ops w verts faces hlen hw hrow hrise hne
  exact ⟨s, e, runAll_refines ht hist i hacc⟩

/-- User-supplied normals are kept by every accessor, translation, scaling and clone, and forgotten
by general offsets and padded replacement (this is what `Abs.next` says); they must have one row per
vertex. -/
theorem meshes_list_normals_history {ops : Ops P K A E L} (ht : TransInv ops)
    (verts normals : List (List P)) (faces : List (List Face))
    (hlen : faces.length = verts.length)
    (hne : ∃ i, ∃ (h : i < verts.length), verts[i] ≠ [] ∧
      (faces[i]'(by omega)).filter Face.real ≠ [])
    (hn : normals.map List.length = verts.map List.length)
    (hist : List (Op P K))
    (hacc : Abs.AcceptsAll ops hist
      { Abs.ofLists ops.zero verts (faces.map (fun f => f.filter Face.real)) with
        normals := .user normals.flatten }) :
    ∃ s, setNormals (ofList verts faces : State P A E L) normals = .ok s ∧
      ∃ os s', runAll ops hist s = .ok (os, s') ∧
      Abs.ReturnsAll ops hist
        { Abs.ofLists ops.zero verts (faces.map (fun f => f.filter Face.real)) with
          normals := .user normals.flatten } os := by
  obtain ⟨s, e, i⟩ := inv_setNormals (inv_ofList (L := L) (E := E) (A := A) ops verts faces hlen hne)
    normals hn
  exact ⟨s, e, runAll_refines ht hist i hacc⟩

/-- Wrong arguments are rejected in every reachable state: an offset with the wrong number of rows,
too few scale factors, a padded tensor with the wrong batch size or width. -/
theorem run_rejects {ops : Ops P K A E L} {a : Abs P} {s : State P A E L}
    (h : Inv ops a s) (op : Op P K) (hop : ¬ a.Accepts op) :
    run ops op s = .error .valueError ∨ run ops op s = .error .indexError := by
  cases op with
  | offset d =>
    cases d with
    | vec t => exact absurd trivial hop
    | full d =>
      left
      obtain ⟨s1, e1, i1, p1, -⟩ := inv_computePacked h
      have hd : d.length ≠ a.packed.verts.length := hop
      have : offsetVerts ops (.full d) s = .error .valueError := by
        simp [offsetVerts, e1, p1, bind, Except.bind, hd]
      simp [run, this, Except.map]
  | scale k =>
    right
    obtain ⟨s1, e1, i1, l1, r1⟩ := inv_getVertsList h
    have hk : k.length < a.verts.length := by
      have : ¬ a.verts.length ≤ k.length := hop
      omega
    have : scaleVerts ops k s = .error .indexError := by
      simp [scaleVerts, e1, bind, Except.bind, hk]
    simp [run, this, Except.map]
  | updatePadded nv b =>
    left
    have hc : nv.length ≠ s.N ∨ ∃ r ∈ nv, r.length ≠ s.V := by
      rw [h.hN, h.hV]
      by_contra hcc
      push Not at hcc
      exact hop ⟨hcc.1, hcc.2⟩
    have : updatePadded ops nv s = .error .valueError := by
      unfold updatePadded
      rw [if_pos hc]
    simp [run, this, Except.map]
  | _ => exact absurd trivial hop

/-- A padded face tensor with a real face after a padding face is rejected. -/
theorem ofPadded_rejects (w : Nat) (verts : List (List P)) (faces : List (List Face))
    (r : List Face) (hr : r ∈ faces) (f : Face) (hf : f ∈ r.dropWhile Face.real)
    (hreal : Face.real f = true) :
    (ofPadded w verts faces : Except Err (State P A E L)) = .error .valueError := by
  have : (faces.map (fun r => r.map Face.real)).any hasRise = true := by
    rw [List.any_map, List.any_eq_true]
    refine ⟨r, hr, ?_⟩
    simp only [Function.comp]
    clear hr
    induction r with
    | nil => simp at hf
    | cons g l ih =>
      by_cases hg : Face.real g = true
      · have h2 : f ∈ l.dropWhile Face.real := by simpa [List.dropWhile_cons, hg] using hf
        have := ih h2
        cases l with
        | nil => simp at h2
        | cons g' l' =>
          simp only [List.map_cons, hasRise, Bool.or_eq_true] at this ⊢
          right; exact this
      · have h2 : f ∈ g :: l := by simpa [List.dropWhile_cons, hg] using hf
        have h3 : f ∈ l := by
          rcases List.mem_cons.mp h2 with e | e
          · subst e; exact absurd hreal hg
          · exact e
        by_contra hcc
        rw [Bool.not_eq_true, List.map_cons, Bool.eq_false_iff.mpr hg] at hcc
        have := hasRise_cons_false hcc (Face.real f) (List.mem_map_of_mem h3)
        rw [hreal] at this
        cases this
  simp [ofPadded, this]

end P3D.Meshes
