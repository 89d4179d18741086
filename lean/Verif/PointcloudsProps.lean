/-
C12, C13: every history of accessor calls and updates on a `Pointclouds` object behaves as the
abstract batch does; exact description of the forms of construction and update for which normals or
features disappear; indexing, splitting, extending, subsampling and joining.
-/
import Verif.PointcloudsUpdates
import Verif.MeshOpsProps

namespace P3D.Clouds

open P3D.StructUtils
open P3D.Meshes (allSame maxNat overwritePadded Offset Index Coh coh_some coh_none map_ok'
  maxNat_replicate mapM_ok_map pieces select_ok pick_err slice_eq pieces_flatten length_pieces
  pieces_length)
open P3D.Meshes.Abs (meshIdx firsts reshapeLike)

variable {P Q F K : Type}

/-! ## C12: histories -/

/-- The calls a client can make.  The `Bool` on `updatePadded` / `clone`: go on with the returned
object (`true`) or with `self` (`false`). -/
inductive Op (P Q F K : Type) where
  | ptsList | normalsList | featuresList | packed | padded | padToPacked | num
  | offset (d : Offset P)
  | scale (k : List K)
  | updatePadded (np : List (List P)) (nn : Option (List (List Q))) (nf : Option (List (List F)))
      (new : Bool)
  | clone (new : Bool)
  | assignNormals (est : List (List Q))

/-- What a call returns. -/
inductive Out (P Q F : Type) where
  | pts (l : List (List P))
  | normals (l : Option (List (List Q)))
  | features (l : Option (List (List F)))
  | packed (v : PackedView P Q F)
  | padded (v : PaddedView P Q F)
  | idx (l : List Nat)
  | unit

/-- One call, in terms of the modelled methods (`Verif/Pointclouds.lean`). -/
def run (ops : Ops P Q F K) (op : Op P Q F K) (s : State P Q F) :
    Except Err (Out P Q F × State P Q F) :=
  match op with
  | .ptsList => (getPtsList s).map (fun r => (.pts r.1, r.2))
  | .normalsList => (getNormalsList s).map (fun r => (.normals r.1, r.2))
  | .featuresList => (getFeaturesList s).map (fun r => (.features r.1, r.2))
  | .packed => (getPacked s).map (fun r => (.packed r.1, r.2))
  | .padded => (getPadded ops s).map (fun r => (.padded r.1, r.2))
  | .padToPacked => .ok (.idx (getPadToPacked s).1, (getPadToPacked s).2)
  | .num => .ok (.idx s.num, s)
  | .offset d => (offset ops d s).map (fun r => (.unit, r))
  | .scale k => (scale ops k s).map (fun r => (.unit, r))
  | .updatePadded np nn nf new =>
      (updatePadded np nn nf s).map (fun r => (.unit, if new then r else s))
  | .clone new => (clone ops s).map (fun r => (.unit, if new then r.1 else r.2))
  | .assignNormals est => (assignNormals ops est s).map (fun r => (.unit, r))

/-- A history of calls. -/
def runAll (ops : Ops P Q F K) : List (Op P Q F K) → State P Q F →
    Except Err (List (Out P Q F) × State P Q F)
  | [], s => .ok ([], s)
  | op :: h, s => do
    let (o, s) ← run ops op s
    let (os, s) ← runAll ops h s
    .ok (o :: os, s)

/-- Effect of a call on the batch. -/
def Abs.next (ops : Ops P Q F K) (op : Op P Q F K) (a : Abs P Q F) : Abs P Q F :=
  match op with
  | .padded => a.made
  | .offset (.vec t) => a.translate ops t
  | .offset (.full d) => a.offset ops d
  | .scale k => a.scale ops k
  | .updatePadded np nn nf true => a.replace np nn nf
  | .assignNormals est => a.setNormals est
  | _ => a

/-- Result of a call on the batch `a`. -/
def Abs.result (a : Abs P Q F) : Op P Q F K → Out P Q F
  | .ptsList => .pts a.pts.data
  | .normalsList => .normals (a.normals.map Col.data)
  | .featuresList => .features (a.features.map Col.data)
  | .packed => .packed a.packed
  | .padded => .padded a.padded
  | .padToPacked => .idx a.padToPacked
  | .num => .idx a.num
  | _ => .unit

/-- Arguments for which the call is safe.  The last two conditions of `updatePadded` say: normals
(features) that are not given anew are kept only if there are none or if the padded view was already
made (see `update_padded_loses_normals`). -/
def Abs.Accepts (a : Abs P Q F) : Op P Q F K → Prop
  | .offset (.full d) => d.length = a.pts.data.flatten.length
  | .scale k => a.pts.data.length ≤ k.length
  | .updatePadded np nn nf _ => a.Shape np ∧ (∀ u, nn = some u → a.Shape u) ∧
      (∀ u, nf = some u → a.Shape u) ∧
      (nn = none → a.normals = none ∨ a.padMade = true) ∧
      (nf = none → a.features = none ∨ a.padMade = true)
  | .assignNormals est => a.Shape est
  | _ => True

/-- All arguments of a history are acceptable at the time of the call. -/
def Abs.AcceptsAll (ops : Ops P Q F K) : List (Op P Q F K) → Abs P Q F → Prop
  | [], _ => True
  | op :: h, a => a.Accepts op ∧ AcceptsAll ops h (a.next ops op)

/-- The results expected from a history. -/
def Abs.resultAll (ops : Ops P Q F K) : List (Op P Q F K) → Abs P Q F → List (Out P Q F)
  | [], _ => []
  | op :: h, a => a.result op :: resultAll ops h (a.next ops op)

/-- One call refines the specification. -/
theorem run_refines {ops : Ops P Q F K} {a : Abs P Q F} {s : State P Q F}
    (h : Inv ops a s) (op : Op P Q F K) (hop : a.Accepts op) :
    ∃ s', run ops op s = .ok (a.result op, s') ∧ Inv ops (a.next ops op) s' := by
  cases op with
  | ptsList => obtain ⟨s', e, i, -⟩ := inv_getPtsList h; exact ⟨_, map_ok' _ e, i⟩
  | normalsList => obtain ⟨s', e, i, -⟩ := inv_getNormalsList h; exact ⟨_, map_ok' _ e, i⟩
  | featuresList => obtain ⟨s', e, i, -⟩ := inv_getFeaturesList h; exact ⟨_, map_ok' _ e, i⟩
  | packed =>
    obtain ⟨s', e, i, h1, h2, h3, h4⟩ := inv_computePacked h
    have e2 : getPacked s = .ok (a.packed, s') := by
      simp only [getPacked, e, bind, Except.bind, h1, h2, h3, h4]
    exact ⟨_, map_ok' _ e2, i⟩
  | padded =>
    obtain ⟨s', e, i, h1, h2, h3⟩ := inv_computePadded h
    have e2 : getPadded ops s = .ok (a.padded, s') := by
      simp only [getPadded, e, bind, Except.bind, h1, h2, h3]
    exact ⟨_, map_ok' _ e2, i⟩
  | padToPacked =>
    obtain ⟨s', e, i⟩ := inv_getPadToPacked h
    exact ⟨s', by simp [run, e, Abs.result], i⟩
  | num => exact ⟨s, by simp [run, h.hnum, Abs.result], h⟩
  | offset d =>
    cases d with
    | vec t => obtain ⟨s', e, i⟩ := inv_offset_vec h t; exact ⟨_, map_ok' _ e, i⟩
    | full d => obtain ⟨s', e, i⟩ := inv_offset_full h d hop; exact ⟨_, map_ok' _ e, i⟩
  | scale k => obtain ⟨s', e, i⟩ := inv_scale h k hop; exact ⟨_, map_ok' _ e, i⟩
  | updatePadded np nn nf b =>
    obtain ⟨h1, h2, h3, h4, h5⟩ := hop
    obtain ⟨s', e, i⟩ := inv_updatePadded h np nn nf h1 h2 h3 h4 h5
    refine ⟨_, map_ok' _ e, ?_⟩
    cases b
    · exact h
    · exact i
  | clone b =>
    obtain ⟨c, s', e, i1, i2⟩ := inv_clone h
    refine ⟨_, map_ok' _ e, ?_⟩
    cases b
    · exact i2
    · exact i1
  | assignNormals est => obtain ⟨s', e, i⟩ := inv_assignNormals h est hop; exact ⟨_, map_ok' _ e, i⟩

theorem runAll_refines {ops : Ops P Q F K} (hist : List (Op P Q F K)) :
    ∀ {a : Abs P Q F} {s : State P Q F}, Inv ops a s → Abs.AcceptsAll ops hist a →
    ∃ s', runAll ops hist s = .ok (Abs.resultAll ops hist a, s') := by
  induction hist with
  | nil => intro a s _ _; exact ⟨s, rfl⟩
  | cons op hs ih =>
    intro a s h hacc
    obtain ⟨s1, e1, i1⟩ := run_refines h op hacc.1
    obtain ⟨s2, e2⟩ := ih i1 hacc.2
    exact ⟨s2, by simp [runAll, e1, e2, bind, Except.bind, Abs.resultAll]⟩

/-- **C12**, points given as a list (with at least one non-empty cloud), normals and features each
absent or given as lists (entries of empty clouds may be `None`): every history of calls succeeds
and each call returns the corresponding view of the current batch. -/
theorem clouds_list_history (ops : Ops P Q F K) (pts : List (List P)) (n : AuxIn Q) (f : AuxIn F)
    (rn : Option (List (List Q))) (rf : Option (List (List F))) (hne : ∃ p ∈ pts, p ≠ [])
    (hn : n.Means (pts.map List.length) rn) (hf : f.Means (pts.map List.length) rf)
    (hist : List (Op P Q F K)) (hacc : Abs.AcceptsAll ops hist (Abs.ofLists ops pts rn rf)) :
    ∃ s s', mk (.list pts) n f = .ok s ∧
      runAll ops hist s = .ok (Abs.resultAll ops hist (Abs.ofLists ops pts rn rf), s') := by
  obtain ⟨s, e, i, -⟩ := inv_mk_list ops pts n f rn rf hne hn hf
  obtain ⟨s', e'⟩ := runAll_refines hist i hacc
  exact ⟨s, s', e, e'⟩

/-- **C12**, everything given in padded form. -/
theorem clouds_padded_history (ops : Ops P Q F K) (w : Nat) (pts : List (List P)) (n : AuxIn Q)
    (f : AuxIn F) (tn : Option (List (List Q))) (tf : Option (List (List F)))
    (hne : pts ≠ []) (hw : ∀ r ∈ pts, r.length = w)
    (hn : n.MeansPadded pts.length w tn) (hf : f.MeansPadded pts.length w tf)
    (hist : List (Op P Q F K)) (hacc : Abs.AcceptsAll ops hist (Abs.ofPadded w pts tn tf)) :
    ∃ s s', mk (.padded w pts) n f = .ok s ∧
      runAll ops hist s = .ok (Abs.resultAll ops hist (Abs.ofPadded w pts tn tf), s') := by
  obtain ⟨s, e, i⟩ := inv_mk_padded ops w pts n f tn tf hne hw hn hf
  obtain ⟨s', e'⟩ := runAll_refines hist i hacc
  exact ⟨s, s', e, e'⟩

/-! ## C12: where normals disappear -/

theorem mk_none_normals {pts : List (List P)} {f : AuxIn F} {s0 : State P Q F}
    (e0 : mk (.list pts) .none f = .ok s0) :
    ∃ xf, parseAux pts.length (maxNat (pts.map List.length)) (pts.map List.length) f = .ok xf ∧
      s0 = { (parsePts (.list pts) : State P Q F) with normals := Aux.empty, features := xf } := by
  have hm : (mk (.list pts) .none f : Except Err (State P Q F)) =
      (parseAux pts.length (maxNat (pts.map List.length)) (pts.map List.length) f >>= fun xf =>
        .ok { (parsePts (.list pts) : State P Q F) with normals := Aux.empty, features := xf }) := rfl
  rw [hm] at e0
  cases hx : parseAux pts.length (maxNat (pts.map List.length)) (pts.map List.length) f with
  | error e => rw [hx] at e0; simp [bind, Except.bind] at e0
  | ok xf =>
    rw [hx] at e0
    simp only [bind, Except.bind, Except.ok.injEq] at e0
    exact ⟨xf, rfl, e0.symm⟩

theorem mk_padded_normals {pts : List (List P)} {t : List (List Q)} {f : AuxIn F} {xf : Aux F}
    (hN : pts.length ≠ 0) (ht : t.length = pts.length)
    (hxf : parseAux pts.length (maxNat (pts.map List.length)) (pts.map List.length) f = .ok xf) :
    mk (.list pts) (.padded (maxNat (pts.map List.length)) t) f
      = .ok { (parsePts (.list pts) : State P Q F) with
          normals := ⟨none, some t, none⟩, features := xf } := by
  have hm : (mk (.list pts) (.padded (maxNat (pts.map List.length)) t) f : Except Err (State P Q F)) =
      (parseAux pts.length (maxNat (pts.map List.length)) (pts.map List.length)
          (.padded (maxNat (pts.map List.length)) t) >>= fun xn =>
        parseAux pts.length (maxNat (pts.map List.length)) (pts.map List.length) f >>= fun xf =>
        .ok { (parsePts (.list pts) : State P Q F) with normals := xn, features := xf }) := rfl
  have hp : parseAux pts.length (maxNat (pts.map List.length)) (pts.map List.length)
      (.padded (maxNat (pts.map List.length)) t) = .ok ⟨none, some t, none⟩ := by
    simp [parseAux, hN, ht]
  rw [hm, hp, hxf]
  rfl

/-- Points as a list, normals as a padded tensor: if a padded accessor is called before
`normals_list()` / a packed accessor / `clone`, then from then on the object behaves exactly like
one without normals. -/
theorem mixed_normals_lost (ops : Ops P Q F K) (pts : List (List P)) (t : List (List Q))
    (f : AuxIn F) (rf : Option (List (List F))) (hne : ∃ p ∈ pts, p ≠ [])
    (ht : t.length = pts.length) (hf : f.Means (pts.map List.length) rf) :
    ∃ s s', mk (.list pts) (.padded (maxNat (pts.map List.length)) t) f = .ok s ∧
      run ops .padded s = .ok (.padded (Abs.ofLists ops pts none rf).padded, s') ∧
      Inv ops (Abs.ofLists ops pts none rf).made s' := by
  obtain ⟨s0, e0, i0, hp0⟩ := inv_mk_list ops pts .none f none rf hne rfl hf
  have hN : pts.length ≠ 0 := by
    obtain ⟨p, hp, _⟩ := hne
    intro hc; rw [List.length_eq_zero_iff.mp hc] at hp; simp at hp
  obtain ⟨xf, hxf, rfl⟩ := mk_none_normals e0
  obtain ⟨s', e', i', h1, h2, h3⟩ := inv_computePadded i0
  refine ⟨{ (parsePts (.list pts) : State P Q F) with
      normals := ⟨none, some t, none⟩, features := xf }, s', ?_, ?_, i'⟩
  · exact mk_padded_normals hN ht hxf
  · have hsame : computePadded ops { (parsePts (.list pts) : State P Q F) with
        normals := ⟨none, some t, none⟩, features := xf } = .ok s' := by
      rw [← e']; rfl
    have hg : getPadded ops { (parsePts (.list pts) : State P Q F) with
        normals := ⟨none, some t, none⟩, features := xf }
        = .ok ((Abs.ofLists ops pts none rf).padded, s') := by
      simp only [getPadded, hsame, bind, Except.bind, h1, h2, h3]
    exact map_ok' _ hg

/-- ... and if `normals_list()` (or a packed accessor) is called first, nothing is lost: the object
then behaves like one built from lists (the contents of the padding of `t` are replaced by zeros). -/
theorem mixed_normals_kept (ops : Ops P Q F K) (pts : List (List P)) (t : List (List Q))
    (f : AuxIn F) (rf : Option (List (List F))) (hne : ∃ p ∈ pts, p ≠ [])
    (ht : t.length = pts.length) (hw : ∀ r ∈ t, r.length = maxNat (pts.map List.length))
    (hf : f.Means (pts.map List.length) rf) :
    ∃ s s', mk (.list pts) (.padded (maxNat (pts.map List.length)) t) f = .ok s ∧
      run ops .normalsList s
        = .ok (.normals (some (List.zipWith (fun r p => r.take p.length) t pts)), s') ∧
      Inv ops (Abs.ofLists ops pts (some (List.zipWith (fun r p => r.take p.length) t pts)) rf) s' := by
  set d := List.zipWith (fun (r : List Q) (p : List P) => r.take p.length) t pts with hd
  have hd2 : (Col.ofPadded (pts.map List.length) t).data = d := by
    simp only [Col.ofPadded, hd, List.zipWith_map_right]
  obtain ⟨ff, -⟩ := ofPadded_fits (num := pts.map List.length) (t := t) (by simp [ht]) hw
  have hlens : d.map List.length = pts.map List.length := by rw [← hd2]; exact ff.lens
  have hcut := ofPadded_cut (num := pts.map List.length) (t := t) (by simp [ht])
  rw [hd2] at hcut
  have hN : pts.length ≠ 0 := by
    obtain ⟨p, hp, _⟩ := hne
    intro hc; rw [List.length_eq_zero_iff.mp hc] at hp; simp at hp
  obtain ⟨s0, e0, i0, hp0⟩ := inv_mk_list ops pts .none f none rf hne rfl hf
  obtain ⟨xf, hxf, rfl⟩ := mk_none_normals e0
  refine ⟨{ (parsePts (.list pts) : State P Q F) with
      normals := ⟨none, some t, none⟩, features := xf },
      { (parsePts (.list pts) : State P Q F) with
      normals := ⟨some d, some t, none⟩, features := xf }, ?_, ?_, ?_⟩
  · exact mk_padded_normals hN ht hxf
  · have : (parsePts (.list pts) : State P Q F).num = pts.map List.length := rfl
    simp only [run, getNormalsList, Aux.getList, this, hcut, bind, Except.bind, Except.map]
  · exact { i0 with
      wf := ⟨i0.wf.ne, i0.wf.pts, fun c hc => by
        have : some (Col.ofList (maxNat (pts.map List.length)) ops.zeroN d) = some c := hc
        rw [← Option.some.inj this]
        exact ofList_fits hlens, i0.wf.features⟩
      hn := ⟨coh_some _, fun hc => by simp [Abs.ofLists] at hc, fun _ => ⟨rfl, rfl⟩,
        fun hc => by simp [parsePts] at hc⟩ }

/-- Points as a padded tensor, normals as a list: `normals_list()` returns them, `normals_padded()`
returns `None`, and `clone()` makes an object without normals. -/
theorem padded_points_list_normals (ops : Ops P Q F K) (w : Nat) (pts : List (List P))
    (n : List (List Q)) (hne : pts ≠ []) (hn : n.map List.length = List.replicate pts.length w) :
    ∃ s : State P Q F, mk (.padded w pts) (.list (n.map some)) .none = .ok s ∧
      (∃ s', getNormalsList s = .ok (some n, s')) ∧
      (∃ s', getPadded ops s = .ok (⟨some pts, none, none⟩, s')) ∧
      (∃ c s' c', clone ops s = .ok (c, s') ∧ getNormalsList c = .ok (none, c')) := by
  have hN : pts.length ≠ 0 := fun hc => hne (List.length_eq_zero_iff.mp hc)
  have hpar := parseAux_ofList (c := some n) (num := List.replicate pts.length w) w
    (by simpa using hN) (fun d hd => by rw [← Option.some.inj hd]; exact hn)
  rw [List.length_replicate] at hpar
  refine ⟨{ (parsePts (.padded w pts) : State P Q F) with normals := ⟨some n, none, none⟩ },
    ?_, ?_, ?_, ?_⟩
  · have : parseAux (parsePts (.padded w pts) : State P Q F).N (parsePts (.padded w pts) : State P Q F).maxP
        (parsePts (.padded w pts) : State P Q F).num (.list (n.map some)) = .ok ⟨some n, none, none⟩ := hpar
    simp only [mk, bind, Except.bind, this]
    rfl
  · exact ⟨_, rfl⟩
  · exact ⟨_, rfl⟩
  · exact ⟨_, _, _, rfl, rfl⟩

/-- `update_padded` with new points only, on an object with normals whose padded view was never
asked for: the new object has the old `normals_list()` but `normals_padded()` is `None`. -/
theorem update_padded_loses_normals {ops : Ops P Q F K} {a : Abs P Q F} {s : State P Q F}
    (h : Inv ops a s) (c : Col Q) (hc : a.normals = some c) (hm : a.padMade = false)
    (hx : s.normals.padded = none) (np : List (List P)) (hs : a.Shape np) :
    ∃ s', updatePadded np none none s = .ok s' ∧
      (∃ s'', getNormalsList s' = .ok (some c.data, s'')) ∧
      (∃ s'' v, getPadded ops s' = .ok (v, s'') ∧ v.normals = none) := by
  have b1 : badShape s.N s.maxP np = false :=
    badShape_false (by rw [h.hN]; exact hs.1) (by rw [h.hP]; exact hs.2)
  have hl : s.normals.list = some c.data := by
    have := h.hn
    rw [hc] at this
    exact (this.2.2.1 hm).1
  refine ⟨_, by simp only [updatePadded, b1, Option.any_none, Bool.false_eq_true, if_false]; rfl,
    ?_, ?_⟩
  · exact ⟨_, by simp only [getNormalsList, updateAux, Aux.getList, hl, bind, Except.bind]; rfl⟩
  · exact ⟨_, _, rfl, hx⟩

/-- A batch of clouds without any point, given as a list: the list views are right, but the packed
"first index" tensor is empty although there are `N` clouds, and normals given for such a batch are
missing from the packed and padded views. -/
theorem pointless_batch (ops : Ops P Q F K) (N : Nat) (hN : N ≠ 0) :
    ∃ s : State P Q F,
      mk (.list (List.replicate N [])) (.list (List.replicate N (some []))) .none = .ok s ∧
      (∃ s', getPtsList s = .ok (List.replicate N [], s')) ∧
      (∃ s', getNormalsList s = .ok (some (List.replicate N []), s')) ∧
      (∃ s', getPacked s = .ok (⟨some [], none, none, some ([], [])⟩, s')) ∧
      (∃ s', getPadded ops s = .ok (⟨some (List.replicate N []), none, none⟩, s')) := by
  have hpar := parseAux_ofList (Q := Q) (c := some (List.replicate N [])) (num := List.replicate N 0)
    (maxNat (List.replicate N 0)) (by simpa using hN) (fun d hd => by rw [← Option.some.inj hd]; simp)
  rw [List.length_replicate] at hpar
  have hemp : isEmptyBatch { (parsePts (.list (List.replicate N ([] : List P))) : State P Q F) with
      normals := (⟨some (List.replicate N []), none, none⟩ : Aux Q) } = true := by
    simp [isEmptyBatch, parsePts]
  refine ⟨{ (parsePts (.list (List.replicate N ([] : List P))) : State P Q F) with
      normals := (⟨some (List.replicate N []), none, none⟩ : Aux Q) }, ?_, ⟨_, rfl⟩, ⟨_, rfl⟩, ?_, ?_⟩
  · have : parseAux (parsePts (.list (List.replicate N ([] : List P))) : State P Q F).N
        (parsePts (.list (List.replicate N ([] : List P))) : State P Q F).maxP
        (parsePts (.list (List.replicate N ([] : List P))) : State P Q F).num
        (.list (List.replicate N (some ([] : List Q)))) = .ok ⟨some (List.replicate N []), none, none⟩ := by
      simpa [parsePts, auxOfList] using hpar
    simp only [mk, bind, Except.bind, this]
    rfl
  · set s0 : State P Q F := { (parsePts (.list (List.replicate N ([] : List P))) : State P Q F) with
      normals := (⟨some (List.replicate N []), none, none⟩ : Aux Q) } with hs0
    have : computePacked s0 = .ok { s0 with
        ptsPacked := some [], cloudIdx := some ([], []),
        normals := { s0.normals with packed := none }
        features := { s0.features with packed := none } } := by
      have h0 : (s0.ptsPacked.isSome && s0.cloudIdx.isSome) = false := rfl
      have h1 : getPtsList s0 = .ok (List.replicate N [], s0) := rfl
      have h2 : getNormalsList s0 = .ok (some (List.replicate N []), s0) := rfl
      have h3 : getFeaturesList s0 = .ok (none, s0) := rfl
      simp only [computePacked, h0, h1, h2, h3, hemp, bind, Except.bind, if_true,
        Bool.false_eq_true, if_false]
    exact ⟨_, by simp only [getPacked, this, bind, Except.bind]; rfl⟩
  · set s0 : State P Q F := { (parsePts (.list (List.replicate N ([] : List P))) : State P Q F) with
      normals := (⟨some (List.replicate N []), none, none⟩ : Aux Q) } with hs0
    have hem2 : isEmptyBatch { s0 with
        normals := { s0.normals with padded := none }
        features := { s0.features with padded := none } } = true := hemp
    have hnn : s0.N = N := by simp [hs0, parsePts]
    have : computePadded ops s0 = .ok { s0 with
        ptsPadded := some (List.replicate s0.N [])
        normals := { s0.normals with padded := none }
        features := { s0.features with padded := none } } := by
      have h0 : s0.ptsPadded.isSome = false := rfl
      simp only [computePadded, h0, Bool.false_eq_true, if_false, hem2, if_true]
    exact ⟨_, by simp only [getPadded, this, bind, Except.bind, hnn]; rfl⟩

/-! ## C13: objects made from other objects -/

/-- An object holds the given clouds, whatever it has cached: the list views are those (normals and
features are dropped if there is no cloud at all), and it is a full model of them if some cloud has
a point. -/
structure Holds (ops : Ops P Q F K) (p : List (List P)) (n : Option (List (List Q)))
    (f : Option (List (List F))) (c : State P Q F) : Prop where
  pts : ∃ c', getPtsList c = .ok (p, c')
  normals : ∃ c', getNormalsList c = .ok (if p.isEmpty then none else n, c')
  features : ∃ c', getFeaturesList c = .ok (if p.isEmpty then none else f, c')
  len : c.N = p.length
  full : (∃ x ∈ p, x ≠ []) → Inv ops (Abs.ofLists ops p n f) c

/-- `n` has one row per point of `p`. -/
def Aligned (p : List (List P)) (n : Option (List (List Q))) : Prop :=
  ∀ d, n = some d → d.map List.length = p.map List.length

theorem means_auxOfList {num : List Nat} {n : Option (List (List Q))}
    (h : ∀ d, n = some d → d.map List.length = num) : (auxOfList n).Means num n := by
  cases n with
  | none => rfl
  | some d =>
    refine ⟨d, rfl, h d rfl, ?_⟩
    clear h
    induction d with
    | nil => exact .nil
    | cons x d ih => exact .cons (Or.inl rfl) ih

theorem holds_mk (ops : Ops P Q F K) (p : List (List P)) (n : Option (List (List Q)))
    (f : Option (List (List F))) (hn : Aligned p n) (hf : Aligned p f) :
    ∃ c, mk (.list p) (auxOfList n) (auxOfList f) = .ok c ∧ Holds ops p n f c := by
  by_cases hp : p = []
  · subst hp
    refine ⟨parsePts (.list []), ?_, ⟨_, rfl⟩, ⟨_, rfl⟩, ⟨_, rfl⟩, rfl, ?_⟩
    · cases n <;> cases f <;> rfl
    · rintro ⟨x, hx, _⟩; simp at hx
  · have hnum : p.map List.length ≠ [] := by simpa using hp
    have pn := parseAux_ofList (maxNat (p.map List.length)) hnum hn
    have pf := parseAux_ofList (maxNat (p.map List.length)) hnum hf
    rw [List.length_map] at pn pf
    have e : (mk (.list p) (auxOfList n) (auxOfList f) : Except Err (State P Q F)) =
        .ok { (parsePts (.list p) : State P Q F) with
          normals := ⟨n, none, none⟩, features := ⟨f, none, none⟩ } := by
      have hm : (mk (.list p) (auxOfList n) (auxOfList f) : Except Err (State P Q F)) =
        (parseAux p.length (maxNat (p.map List.length)) (p.map List.length) (auxOfList n) >>= fun xn =>
          parseAux p.length (maxNat (p.map List.length)) (p.map List.length) (auxOfList f) >>= fun xf =>
          .ok { (parsePts (.list p) : State P Q F) with normals := xn, features := xf }) := rfl
      rw [hm, pn, pf]; rfl
    refine ⟨_, e, ⟨_, rfl⟩, ?_, ?_, rfl, ?_⟩
    · have : p.isEmpty = false := by cases p <;> simp_all
      rw [this]
      cases n <;> exact ⟨_, rfl⟩
    · have : p.isEmpty = false := by cases p <;> simp_all
      rw [this]
      cases f <;> exact ⟨_, rfl⟩
    · intro hne
      obtain ⟨c, ec, ic, -⟩ := inv_mk_list ops p (auxOfList n) (auxOfList f) n f hne
        (means_auxOfList hn) (means_auxOfList hf)
      rw [e] at ec
      rw [Except.ok.inj ec]
      exact ic

/-- Data of the normals (features) of a batch. -/
def Abs.nData (a : Abs P Q F) : Option (List (List Q)) := a.normals.map Col.data

/-- Data of the features of a batch. -/
def Abs.fData (a : Abs P Q F) : Option (List (List F)) := a.features.map Col.data

theorem aligned_n {a : Abs P Q F} (h : a.WF) : Aligned a.pts.data a.nData := by
  intro d hd
  obtain ⟨c, hc, rfl⟩ := Option.map_eq_some_iff.mp hd
  exact (h.normals c hc).lens

theorem aligned_f {a : Abs P Q F} (h : a.WF) : Aligned a.pts.data a.fData := by
  intro d hd
  obtain ⟨c, hc, rfl⟩ := Option.map_eq_some_iff.mp hd
  exact (h.features c hc).lens

theorem getD_length {X Y : Type} {l : List (List X)} {r : List (List Y)}
    (h : l.map List.length = r.map List.length) (k : Nat) :
    (l.getD k []).length = (r.getD k []).length := by
  have := congrArg (fun t => t[k]?) h
  simp only [List.getElem?_map] at this
  rw [List.getD_eq_getElem?_getD, List.getD_eq_getElem?_getD]
  cases h1 : l[k]? <;> cases h2 : r[k]? <;> simp [h1, h2] at this ⊢
  exact this

theorem selectOpt_ok {n : Nat} {l : Option (List (List Q))} {ix : Index} {ps : List Nat}
    (hl : ∀ d, l = some d → d.length = n) (h : ix.Selects n ps) :
    selectOpt ix l = .ok (l.map (fun d => ps.map (fun k => d.getD k []))) := by
  cases l with
  | none => rfl
  | some d =>
    have := select_ok d ix ps (by rw [hl d rfl]; exact h)
    simp only [selectOpt, this]; rfl

theorem aligned_length {p : List (List P)} {n : Option (List (List Q))} (h : Aligned p n) :
    ∀ d, n = some d → d.length = p.length := by
  intro d hd
  have := congrArg List.length (h d hd)
  simpa using this

/-- The three list views of a batch, read one after the other in any state standing for it. -/
theorem three_lists {ops : Ops P Q F K} {a : Abs P Q F} {s : State P Q F} (h : Inv ops a s) :
    ∃ s1 s2 s3, getPtsList s = .ok (a.pts.data, s1) ∧ getNormalsList s1 = .ok (a.nData, s2) ∧
      getFeaturesList s2 = .ok (a.fData, s3) ∧ Inv ops a s3 := by
  obtain ⟨s1, e1, i1, -⟩ := inv_getPtsList h
  obtain ⟨s2, e2, i2, -⟩ := inv_getNormalsList i1
  obtain ⟨s3, e3, i3, -⟩ := inv_getFeaturesList i2
  exact ⟨s1, s2, s3, e1, e2, e3, i3⟩

/-- **C13 (indexing).** For every valid index, `clouds[index]` holds exactly the selected clouds in
order with their own normals and features; `clouds` itself is unchanged. -/
theorem getItem_spec {ops : Ops P Q F K} {a : Abs P Q F} {s : State P Q F} (h : Inv ops a s)
    (ix : Index) (ps : List Nat) (hix : ix.Selects a.pts.data.length ps) :
    ∃ c s', getItem ix s = .ok (c, s') ∧ Inv ops a s' ∧
      Holds ops (ps.map (fun k => a.pts.data.getD k []))
        (a.nData.map (fun d => ps.map (fun k => d.getD k [])))
        (a.fData.map (fun d => ps.map (fun k => d.getD k []))) c := by
  obtain ⟨s1, e1, i1, -⟩ := inv_getNormalsList h
  obtain ⟨s2, e2, i2, -⟩ := inv_getFeaturesList i1
  obtain ⟨s3, e3, i3, -⟩ := inv_getPtsList i2
  have al : ∀ {X : Type} {n : Option (List (List X))}, Aligned a.pts.data n →
      Aligned (ps.map (fun k => a.pts.data.getD k [])) (n.map (fun d => ps.map (fun k => d.getD k []))) := by
    intro X n hn d hd
    obtain ⟨c, hc, rfl⟩ := Option.map_eq_some_iff.mp hd
    simp only [List.map_map]
    apply List.map_congr_left
    intro k _
    exact getD_length (hn c hc) k
  obtain ⟨c, ec, hc⟩ := holds_mk ops _ _ _ (al (aligned_n h.wf)) (al (aligned_f h.wf))
  refine ⟨c, s3, ?_, i3, hc⟩
  have hn := selectOpt_ok (aligned_length (aligned_n h.wf)) hix
  have hf := selectOpt_ok (aligned_length (aligned_f h.wf)) hix
  simp only [Abs.nData] at hn ec
  simp only [Abs.fData] at hf ec
  simp only [getItem, e1, e2, e3, bind, Except.bind, select_ok a.pts.data ix ps hix, hn, hf, ec]

/-- An out-of-range position raises `IndexError`. -/
theorem getItem_err {ops : Ops P Q F K} {a : Abs P Q F} {s : State P Q F} (h : Inv ops a s)
    (l : List Int) (hl : ¬ ∀ i ∈ l, -(a.pts.data.length : Int) ≤ i ∧ i < a.pts.data.length) :
    getItem (.ints l) s = .error .indexError := by
  obtain ⟨s1, e1, i1, -⟩ := inv_getNormalsList h
  obtain ⟨s2, e2, i2, -⟩ := inv_getFeaturesList i1
  obtain ⟨s3, e3, i3, -⟩ := inv_getPtsList i2
  simp only [getItem, e1, e2, e3, bind, Except.bind, Index.select, pick_err a.pts.data l hl]

/-- Optional attribute, piece by piece. -/
def optPieces (sizes : List Nat) (n : Option (List (List Q))) : List (Option (List (List Q))) :=
  match n with
  | none => sizes.map (fun _ => none)
  | some d => (pieces sizes d).map some

theorem aligned_take_drop {p : List (List P)} {n : Option (List (List Q))} (h : Aligned p n)
    (i k : Nat) : Aligned ((p.drop i).take k) (n.map (fun d => (d.drop i).take k)) := by
  intro d hd
  obtain ⟨c, hc, rfl⟩ := Option.map_eq_some_iff.mp hd
  have := h c hc
  rw [List.map_take, List.map_drop, this, ← List.map_drop, ← List.map_take]

/-- **C13 (split).** `split(sizes)` returns objects holding the consecutive pieces. -/
theorem split_spec {ops : Ops P Q F K} {a : Abs P Q F} {s : State P Q F} (h : Inv ops a s)
    (sizes : List Nat) :
    ∃ cs s', split sizes s = .ok (cs, s') ∧ Inv ops a s' ∧
      List.Forall₂ (fun (p : List (List P) × Option (List (List Q)) × Option (List (List F))) c =>
          Holds ops p.1 p.2.1 p.2.2 c)
        ((pieces sizes a.pts.data).zip ((optPieces sizes a.nData).zip (optPieces sizes a.fData))) cs := by
  have gen : ∀ (sizes : List Nat) (i : Nat) (s : State P Q F), Inv ops a s →
      ∃ cs s', split.go i sizes s = .ok (cs, s') ∧ Inv ops a s' ∧
      List.Forall₂ (fun (p : List (List P) × Option (List (List Q)) × Option (List (List F))) c =>
          Holds ops p.1 p.2.1 p.2.2 c)
        ((pieces sizes (a.pts.data.drop i)).zip
          ((optPieces sizes (a.nData.map (fun d => d.drop i))).zip
            (optPieces sizes (a.fData.map (fun d => d.drop i))))) cs := by
    intro sizes
    induction sizes with
    | nil => intro c s h; exact ⟨[], s, rfl, h, by simp [pieces]⟩
    | cons n ns ih =>
      intro i s h
      obtain ⟨s1, e1, i1, -⟩ := inv_getNormalsList h
      obtain ⟨s2, e2, i2, -⟩ := inv_getFeaturesList i1
      obtain ⟨s3, e3, i3, -⟩ := inv_getPtsList i2
      obtain ⟨cs, s4, e4, i4, f4⟩ := ih (i + n) s3 i3
      obtain ⟨c, ec, hc⟩ := holds_mk ops _ _ _ (aligned_take_drop (aligned_n h.wf) i n)
        (aligned_take_drop (aligned_f h.wf) i n)
      refine ⟨c :: cs, s4, ?_, i4, ?_⟩
      · have hs : ∀ {X : Type} (l : Option (List (List X))),
            selectOpt (.slice i (i + n)) l = .ok (l.map (fun d => (d.drop i).take n)) := by
          intro X l
          cases l with
          | none => rfl
          | some d => simp only [selectOpt, Index.select, slice_eq]; rfl
        simp only [Abs.nData, Abs.fData] at ec
        simp only [split.go, getItem, e1, e2, e3, bind, Except.bind, hs, ec, e4, Index.select, slice_eq]
      · have hop : ∀ {X : Type} (l : Option (List (List X))),
            optPieces (n :: ns) (l.map (fun d => d.drop i))
              = l.map (fun d => (d.drop i).take n) :: optPieces ns (l.map (fun d => d.drop (i + n))) := by
          intro X l
          cases l with
          | none => rfl
          | some d => simp [optPieces, pieces]
        rw [hop, hop]
        simp only [pieces, List.zip_cons_cons, List.drop_drop]
        exact .cons hc f4
  have := gen sizes 0 s h
  simpa [split, Function.comp_def] using this

/-- Specification of joining one attribute: absent everywhere, or present everywhere. -/
def Joins {X : Type} (ls : List (Option (List X))) (r : Option (List X)) : Prop :=
  (r = none ∧ ∀ l ∈ ls, l = none) ∨ ∃ ds : List (List X), ls = ds.map some ∧ r = some ds.flatten

theorem joinField_ok {ls : List (Option (List (List Q)))} {r : Option (List (List Q))}
    (h : Joins ls r) (hne : ls ≠ []) : joinField ls = .ok r := by
  rcases h with ⟨rfl, h⟩ | ⟨ds, rfl, rfl⟩
  · have h1 : ls.any Option.isNone = true := by
      cases ls with
      | nil => simp at hne
      | cons x l => simp [h x (by simp)]
    have h2 : ls.all Option.isNone = true := by
      rw [List.all_eq_true]; intro x hx; rw [h x hx]; rfl
    simp [joinField, h1, h2]
  · have h1 : (ds.map some).any Option.isNone = false := by simp
    simp [joinField, h1]

theorem joins_aligned {X Y : Type} {ps : List (List (List X))} {ls : List (Option (List (List Y)))}
    {r : Option (List (List Y))} (h : Joins ls r)
    (hal : List.Forall₂ (fun p n => Aligned p n) ps ls) : Aligned ps.flatten r := by
  intro d hd
  rcases h with ⟨rfl, h⟩ | ⟨ds, rfl, rfl⟩
  · simp at hd
  · rw [← Option.some.inj hd]
    clear hd d
    induction ds generalizing ps with
    | nil => cases hal; rfl
    | cons x ds ih =>
      cases hal with
      | cons h1 h2 => simp [h1 x rfl, ih h2]

/-- The data of a batch: points, normals, features. -/
abbrev Data (P Q F : Type) := List (List P) × Option (List (List Q)) × Option (List (List F))

/-- **C13 (join).** Joining non-empty batches that all have normals or all have none (same for
features) gives the concatenation of all three. -/
theorem joinBatch_spec (ops : Ops P Q F K) (xs : List (Data P Q F)) (cs : List (State P Q F))
    (hne : cs ≠ []) (hx : List.Forall₂ (fun x c => Holds ops x.1 x.2.1 x.2.2 c) xs cs)
    (hnon : ∀ x ∈ xs, x.1 ≠ []) (haln : ∀ x ∈ xs, Aligned x.1 x.2.1)
    (half : ∀ x ∈ xs, Aligned x.1 x.2.2) (rn : Option (List (List Q))) (rf : Option (List (List F)))
    (hn : Joins (xs.map (fun x => x.2.1)) rn) (hf : Joins (xs.map (fun x => x.2.2)) rf) :
    ∃ c, joinBatch cs = .ok c ∧ Holds ops (xs.map Prod.fst).flatten rn rf c := by
  have hxne : xs ≠ [] := by rintro rfl; cases hx; simp at hne
  have h1 : cs.mapM (fun m => (getPtsList m).map Prod.fst) = .ok (xs.map Prod.fst) := by
    clear hnon haln half hn hf hne hxne
    induction hx with
    | nil => rfl
    | cons hp _ ih => obtain ⟨m', e⟩ := hp.pts; rw [List.mapM_cons, ih, e]; rfl
  have h2 : cs.mapM (fun m => (getNormalsList m).map Prod.fst) = .ok (xs.map (fun x => x.2.1)) := by
    clear haln half hn hf hne hxne h1
    induction hx with
    | nil => rfl
    | @cons x _ _ _ hp _ ih =>
      obtain ⟨m', e⟩ := hp.normals
      have : x.1.isEmpty = false := by
        have := hnon _ List.mem_cons_self
        rwa [← Bool.not_eq_true, List.isEmpty_iff]
      rw [List.mapM_cons, ih (fun x hx => hnon x (List.mem_cons_of_mem _ hx)), e, this]; rfl
  have h3 : cs.mapM (fun m => (getFeaturesList m).map Prod.fst) = .ok (xs.map (fun x => x.2.2)) := by
    clear haln half hn hf hne hxne h1 h2
    induction hx with
    | nil => rfl
    | @cons x _ _ _ hp _ ih =>
      obtain ⟨m', e⟩ := hp.features
      have : x.1.isEmpty = false := by
        have := hnon _ List.mem_cons_self
        rwa [← Bool.not_eq_true, List.isEmpty_iff]
      rw [List.mapM_cons, ih (fun x hx => hnon x (List.mem_cons_of_mem _ hx)), e, this]; rfl
  have al : ∀ {Y : Type} (g : Data P Q F → Option (List (List Y))), (∀ x ∈ xs, Aligned x.1 (g x)) →
      List.Forall₂ (fun p n => Aligned p n) (xs.map Prod.fst) (xs.map g) := by
    intro Y g hg
    rw [List.forall₂_map_left_iff, List.forall₂_map_right_iff, List.forall₂_same]
    exact hg
  obtain ⟨c, ec, hc⟩ := holds_mk ops (xs.map Prod.fst).flatten rn rf
    (joins_aligned hn (al (fun x => x.2.1) haln)) (joins_aligned hf (al (fun x => x.2.2) half))
  refine ⟨c, ?_, hc⟩
  have hemp : cs.isEmpty = false := by
    cases cs with
    | nil => simp at hne
    | cons _ _ => rfl
  simp only [joinBatch, hemp, Bool.false_eq_true, if_false, h1, h2, h3, bind, Except.bind,
    joinField_ok hn (by simpa using hxne), joinField_ok hf (by simpa using hxne), ec]

/-- A batch with normals cannot be joined with one without: `ValueError`. -/
theorem joinBatch_mixed (ops : Ops P Q F K) (x y : Data P Q F) (c d : State P Q F)
    (hx : Holds ops x.1 x.2.1 x.2.2 c) (hy : Holds ops y.1 y.2.1 y.2.2 d)
    (hxn : x.1 ≠ [] ∧ x.2.1 ≠ none) (hyn : y.1 = [] ∨ y.2.1 = none) :
    joinBatch [c, d] = .error .valueError := by
  obtain ⟨_, p1⟩ := hx.pts
  obtain ⟨_, p2⟩ := hy.pts
  obtain ⟨_, n1⟩ := hx.normals
  obtain ⟨_, n2⟩ := hy.normals
  obtain ⟨_, f1⟩ := hx.features
  obtain ⟨_, f2⟩ := hy.features
  have hn2 : (if y.1.isEmpty then none else y.2.1) = none := by
    rcases hyn with h | h <;> simp [h]
  obtain ⟨dn, hd⟩ := Option.ne_none_iff_exists'.mp hxn.2
  have hn1 : (if x.1.isEmpty then none else x.2.1) = some dn := by
    rw [if_neg (by simpa [List.isEmpty_iff] using hxn.1), hd]
  rw [hn1] at n1
  rw [hn2] at n2
  simp [joinBatch, joinField, p1, p2, n1, n2, f1, f2, bind, Except.bind, Except.map, pure, Except.pure]

theorem joins_optPieces {X : Type} (sizes : List Nat) (n : Option (List (List X)))
    (hn : ∀ d, n = some d → sizes.sum = d.length) : Joins (optPieces sizes n) n := by
  cases n with
  | none => exact Or.inl ⟨rfl, by simp [optPieces]⟩
  | some d => exact Or.inr ⟨pieces sizes d, rfl, by rw [pieces_flatten _ _ (hn d rfl)]⟩

/-- **C13 (round trip).** Splitting into non-empty pieces and joining them gives the batch back. -/
theorem split_join {ops : Ops P Q F K} {a : Abs P Q F} {s : State P Q F} (h : Inv ops a s)
    (sizes : List Nat) (hsum : sizes.sum = a.pts.data.length) (hpos : ∀ n ∈ sizes, 0 < n) :
    ∃ cs s' c, split sizes s = .ok (cs, s') ∧ joinBatch cs = .ok c ∧
      Holds ops a.pts.data a.nData a.fData c := by
  obtain ⟨cs, s', e, -, hf⟩ := split_spec h sizes
  have hol : ∀ {X : Type} (n : Option (List (List X))), (optPieces sizes n).length = sizes.length := by
    intro X n
    cases n <;> simp [optPieces, length_pieces]
  have hlz : ((optPieces sizes a.nData).zip (optPieces sizes a.fData)).length = sizes.length := by
    simp [hol]
  have hz1 := List.map_fst_zip (l₁ := pieces sizes a.pts.data)
    (l₂ := (optPieces sizes a.nData).zip (optPieces sizes a.fData)) (by rw [hlz, length_pieces])
  have hz2 : ((pieces sizes a.pts.data).zip
      ((optPieces sizes a.nData).zip (optPieces sizes a.fData))).map (fun x => x.2.1)
      = optPieces sizes a.nData := by
    have h1 := List.map_snd_zip (l₁ := pieces sizes a.pts.data)
      (l₂ := (optPieces sizes a.nData).zip (optPieces sizes a.fData)) (by rw [hlz, length_pieces])
    have h2 := congrArg (List.map Prod.fst) h1
    rw [List.map_map, List.map_fst_zip (l₁ := optPieces sizes a.nData) (by rw [hol, hol])] at h2
    exact h2
  have hz3 : ((pieces sizes a.pts.data).zip
      ((optPieces sizes a.nData).zip (optPieces sizes a.fData))).map (fun x => x.2.2)
      = optPieces sizes a.fData := by
    have h1 := List.map_snd_zip (l₁ := pieces sizes a.pts.data)
      (l₂ := (optPieces sizes a.nData).zip (optPieces sizes a.fData)) (by rw [hlz, length_pieces])
    have h2 := congrArg (List.map Prod.snd) h1
    rw [List.map_map, List.map_snd_zip (l₁ := optPieces sizes a.nData) (by rw [hol, hol])] at h2
    exact h2
  have alz : ∀ {X : Type} (n : Option (List (List X))), Aligned a.pts.data n →
      List.Forall₂ (fun p n => Aligned p n) (pieces sizes a.pts.data) (optPieces sizes n) := by
    intro X n hn
    clear hf e hsum hpos hz1 hz2 hz3 hlz hol
    generalize a.pts.data = l at hn
    induction sizes generalizing l n with
    | nil => cases n <;> exact .nil
    | cons k ks ih =>
      have t := aligned_take_drop hn 0 k
      have d : Aligned (l.drop k) (n.map (fun d => d.drop k)) := by
        intro d hd
        obtain ⟨c, hc, rfl⟩ := Option.map_eq_some_iff.mp hd
        rw [List.map_drop, hn c hc, List.map_drop]
      have r := ih _ _ d
      cases n with
      | none => exact .cons t r
      | some x => exact .cons t r
  have hzip : ∀ {A B : Type} {R : A → B → Prop} {l : List A} {r : List B}, List.Forall₂ R l r →
      ∀ i (h1 : i < l.length) (h2 : i < r.length), R l[i] r[i] := by
    intro A B R l r hr i h1 h2
    exact hr.get h1 h2
  have hne : cs ≠ [] := by
    rintro rfl
    cases hs : sizes with
    | nil => rw [hs] at hsum; exact h.wf.ne (List.length_eq_zero_iff.mp (by simpa using hsum.symm))
    | cons k ks =>
      have := hf.length_eq
      rw [List.length_zip, hlz, length_pieces, hs] at this
      simp at this
  obtain ⟨c, ec, hc⟩ := joinBatch_spec ops _ cs hne hf
    (by
      intro x hx
      have hm := List.mem_map_of_mem (f := Prod.fst) hx
      rw [hz1] at hm
      clear hf e hz1 hz2 hz3 hlz hol alz hzip hne hx
      generalize a.pts.data = l at hsum hm
      induction sizes generalizing l with
      | nil => simp [pieces] at hm
      | cons k ks ih =>
        simp only [pieces, List.mem_cons] at hm
        simp only [List.sum_cons] at hsum
        have hk := hpos k (by simp)
        rcases hm with hm | hm
        · rw [hm]
          intro hc
          have := congrArg List.length hc
          rw [List.length_take, List.length_nil] at this
          omega
        · exact ih (fun n hn => hpos n (by simp [hn])) (l.drop k) (by simp; omega) hm)
    (by
      intro x hx
      obtain ⟨i, hi, rfl⟩ := List.getElem_of_mem hx
      simp only [List.getElem_zip]
      exact hzip (alz _ (aligned_n h.wf)) i _ _)
    (by
      intro x hx
      obtain ⟨i, hi, rfl⟩ := List.getElem_of_mem hx
      simp only [List.getElem_zip]
      exact hzip (alz _ (aligned_f h.wf)) i _ _)
    a.nData a.fData
    (by
      rw [hz2]
      exact joins_optPieces sizes _ (fun d hd => by
        rw [hsum, aligned_length (aligned_n h.wf) d hd]))
    (by
      rw [hz3]
      exact joins_optPieces sizes _ (fun d hd => by
        rw [hsum, aligned_length (aligned_f h.wf) d hd]))
  rw [hz1, pieces_flatten _ _ hsum] at hc
  exact ⟨cs, s', c, e, ec, hc⟩

/-- **C13 (extend).** -/
theorem extend_spec {ops : Ops P Q F K} {a : Abs P Q F} {s : State P Q F} (h : Inv ops a s) (n : Nat) :
    (n = 0 → extend n s = .error .valueError) ∧
    (0 < n → ∃ c s', extend n s = .ok (c, s') ∧ Inv ops a s' ∧
      Holds ops (a.pts.data.flatMap (fun v => List.replicate n v))
        (a.nData.map (fun d => d.flatMap (fun v => List.replicate n v)))
        (a.fData.map (fun d => d.flatMap (fun v => List.replicate n v))) c) := by
  constructor
  · intro h0; simp [extend, h0]
  · intro hn
    obtain ⟨s1, s2, s3, e1, e2, e3, i3⟩ := three_lists h
    have al : ∀ {X : Type} {r : Option (List (List X))}, Aligned a.pts.data r →
        Aligned (a.pts.data.flatMap (fun v => List.replicate n v))
          (r.map (fun d => d.flatMap (fun v => List.replicate n v))) := by
      intro X r hr d hd
      obtain ⟨c, hc, rfl⟩ := Option.map_eq_some_iff.mp hd
      have e : ∀ {Z : Type} (l : List (List Z)), (l.flatMap (fun v => List.replicate n v)).map List.length
          = (l.map List.length).flatMap (fun k => List.replicate n k) := by
        intro Z l
        induction l with
        | nil => rfl
        | cons x l ih => simp [List.flatMap_cons, ih]
      rw [e, e, hr c hc]
    obtain ⟨c, ec, hc⟩ := holds_mk ops _ _ _ (al (aligned_n h.wf)) (al (aligned_f h.wf))
    exact ⟨c, s3, by simp only [extend, if_neg (by omega : ¬ n = 0), e1, e2, e3, bind, Except.bind, ec],
      i3, hc⟩

/-- **C13 (`get_cloud`).** Valid indices give the cloud with its normals and features; `index = N`
gives `IndexError` because the check is `index > N`; other indices give `ValueError`. -/
theorem getCloud_spec {ops : Ops P Q F K} {a : Abs P Q F} {s : State P Q F} (h : Inv ops a s)
    (i : Int) :
    (∀ k : Nat, i = k → ∀ hk : k < a.pts.data.length, ∃ s', getCloud i s =
      .ok ((a.pts.data[k], a.nData.map (fun d => d.getD k []), a.fData.map (fun d => d.getD k [])), s')
        ∧ Inv ops a s') ∧
    ((i < 0 ∨ (a.pts.data.length : Int) < i) → getCloud i s = .error .valueError) ∧
    (i = a.pts.data.length → getCloud i s = .error .indexError) := by
  obtain ⟨s1, s2, s3, e1, e2, e3, i3⟩ := three_lists h
  have hN := h.hN
  refine ⟨?_, ?_, ?_⟩
  · rintro k rfl hk
    refine ⟨s3, ?_, i3⟩
    have hb : ∀ {X : Type} {r : Option (List (List X))}, Aligned a.pts.data r →
        r.bind (fun l => l[k]?) = r.map (fun d => d.getD k []) := by
      intro X r hr
      cases r with
      | none => rfl
      | some d =>
        have : k < d.length := by rw [aligned_length hr d rfl]; exact hk
        simp [this]
    unfold getCloud
    rw [if_neg (by omega)]
    simp only [e1, e2, e3, bind, Except.bind, Int.toNat_natCast, List.getElem?_eq_getElem hk,
      hb (aligned_n h.wf), hb (aligned_f h.wf)]
  · intro hi
    unfold getCloud
    rw [if_pos (by omega)]
  · rintro rfl
    unfold getCloud
    rw [if_neg (by omega)]
    simp [e1, e2, e3, bind, Except.bind]

/-- What `subsample` keeps of one attribute: clouds within the limit are kept whole, the others are
read at the positions drawn for them. -/
def Abs.kept (num mxs : List Nat) (draws : List (List Nat)) (d : List (List Q)) (z : Q) :
    List (List Q) :=
  (List.range d.length).map (fun i =>
    if num.getD i 0 ≤ mxs.getD i 0 then d.getD i []
    else (draws.getD i []).map (fun j => (d.getD i []).getD j z))

theorem subsampleRows_ok {num mxs : List Nat} {draws : List (List Nat)} {d : List (List Q)} (z : Q)
    (hd : d.map List.length = num) (hm : mxs.length = num.length) (hw : draws.length = num.length)
    (hb : ∀ i, mxs.getD i 0 < num.getD i 0 → ∀ j ∈ draws.getD i [], j < num.getD i 0) :
    subsampleRows num mxs draws d = .ok (Abs.kept num mxs draws d z) := by
  have hl : d.length = num.length := by rw [← hd]; simp
  have e : List.zip (List.zip num mxs) (List.zip draws d) = (List.range d.length).map (fun i =>
      ((num.getD i 0, mxs.getD i 0), (draws.getD i [], d.getD i []))) := by
    apply List.ext_getElem
    · simp; omega
    · intro i h1 h2
      simp at h1 h2
      have a1 : i < num.length := by omega
      have a2 : i < mxs.length := by omega
      have a3 : i < draws.length := by omega
      simp [a1, a2, a3, h2]
  have key : ∀ (L : List Nat), (∀ i ∈ L, i < d.length) →
      (L.map (fun i => ((num.getD i 0, mxs.getD i 0), (draws.getD i [], d.getD i [])))).mapM
        (fun t => keepRows t.1.1 t.1.2 t.2.1 t.2.2)
      = .ok (L.map (fun i => if num.getD i 0 ≤ mxs.getD i 0 then d.getD i []
          else (draws.getD i []).map (fun j => (d.getD i []).getD j z))) := by
    intro L hL
    induction L with
    | nil => rfl
    | cons i L ih =>
      have hi := hL i (by simp)
      rw [List.map_cons, List.mapM_cons, ih (fun j hj => hL j (by simp [hj]))]
      have : keepRows (num.getD i 0) (mxs.getD i 0) (draws.getD i []) (d.getD i [])
          = .ok (if num.getD i 0 ≤ mxs.getD i 0 then d.getD i []
          else (draws.getD i []).map (fun j => (d.getD i []).getD j z)) := by
        unfold keepRows
        by_cases hc : num.getD i 0 ≤ mxs.getD i 0
        · rw [if_neg (by omega), if_pos hc]
        · rw [if_pos (by omega), if_neg hc]
          apply P3D.Meshes.gather_ok
          intro j hj
          have := hb i (by omega) j hj
          have hi' : i < num.length := by omega
          have hlen : (d.getD i []).length = num.getD i 0 := by
            simp only [List.getD_eq_getElem?_getD, List.getElem?_eq_getElem hi, Option.getD_some,
              List.getElem?_eq_getElem hi']
            simp [← hd]
          have hj' : j < (d.getD i []).length := by omega
          generalize d.getD i [] = x at hj'
          rw [List.getD_eq_getElem?_getD, List.getElem?_eq_getElem hj']
          rfl
      simp only [this, bind, Except.bind, List.map_cons]
      rfl
  rw [subsampleRows, e, key _ (fun i hi => List.mem_range.mp hi)]
  rfl

theorem getD_map_length {X : Type} (l : List (List X)) (i : Nat) :
    (l.map List.length).getD i 0 = (l.getD i []).length := by
  rw [List.getD_eq_getElem?_getD, List.getD_eq_getElem?_getD, List.getElem?_map]
  cases l[i]? <;> rfl

/-- Results of the draws: for each cloud above its limit, as many distinct positions as the limit. -/
def Abs.DrawsOK (num mxs : List Nat) (draws : List (List Nat)) : Prop :=
  draws.length = num.length ∧ ∀ i, mxs.getD i 0 < num.getD i 0 →
    (draws.getD i []).length = mxs.getD i 0 ∧ (draws.getD i []).Nodup ∧
      ∀ j ∈ draws.getD i [], j < num.getD i 0

theorem kept_lens {num mxs : List Nat} {draws : List (List Nat)} {d : List (List Q)} (z : Q)
    (hd : d.map List.length = num) (hw : Abs.DrawsOK num mxs draws) :
    (Abs.kept num mxs draws d z).map List.length
      = (List.range num.length).map (fun i => min (num.getD i 0) (mxs.getD i 0)) := by
  have hl : d.length = num.length := by rw [← hd]; simp
  rw [Abs.kept, List.map_map, hl]
  apply List.map_congr_left
  intro i _
  simp only [Function.comp]
  by_cases hc : num.getD i 0 ≤ mxs.getD i 0
  · rw [if_pos hc, ← getD_map_length, hd]; omega
  · rw [if_neg hc, List.length_map, (hw.2 i (by omega)).1]; omega

/-- **C13 (subsample).** With one limit per cloud and draws of distinct positions, the result is
`self` when every cloud is within its limit; otherwise it holds, for each cloud, either the whole
cloud or the points drawn, in the order of the draw, with their own normals and features; cloud `i`
has `min(num_i, max_i)` points. -/
theorem subsample_spec {ops : Ops P Q F K} {a : Abs P Q F} {s : State P Q F} (h : Inv ops a s)
    (mxs : List Nat) (draws : List (List Nat)) (hm : mxs.length = a.num.length)
    (hw : Abs.DrawsOK a.num mxs draws) (zp : P) (zn : Q) (zf : F) :
    ((∀ i, a.num.getD i 0 ≤ mxs.getD i 0) → subsample mxs draws s = .ok (s, s)) ∧
    ((∃ i, mxs.getD i 0 < a.num.getD i 0) → ∃ c s', subsample mxs draws s = .ok (c, s') ∧
      Inv ops a s' ∧
      Holds ops (Abs.kept a.num mxs draws a.pts.data zp)
        (a.nData.map (fun d => Abs.kept a.num mxs draws d zn))
        (a.fData.map (fun d => Abs.kept a.num mxs draws d zf)) c ∧
      (Abs.kept a.num mxs draws a.pts.data zp).map List.length
        = (List.range a.num.length).map (fun i => min (a.num.getD i 0) (mxs.getD i 0))) := by
  have hN : mxs.length = s.N := by rw [h.hN, hm]; simp [Abs.num]
  have hall : (List.zip s.num mxs).all (fun p => decide (p.1 ≤ p.2)) = true ↔
      ∀ i, a.num.getD i 0 ≤ mxs.getD i 0 := by
    rw [h.hnum, List.all_eq_true]
    constructor
    · intro hc i
      by_cases hi : i < a.num.length
      · have hi2 : i < mxs.length := by omega
        have := hc (a.num[i], mxs[i]) (by
          rw [List.mem_iff_getElem]
          exact ⟨i, by simp; omega, by simp⟩)
        simp [hi, hi2]
        simpa using this
      · rw [List.getD_eq_getElem?_getD, List.getElem?_eq_none (by omega)]; simp
    · rintro hc ⟨x, y⟩ hxy
      obtain ⟨i, hi, e⟩ := List.mem_iff_getElem.mp hxy
      simp at hi e
      have := hc i
      simp [hi.1, hi.2, e.1, e.2] at this
      simpa using this
  constructor
  · intro hle
    simp only [subsample, hN, ne_eq, not_true_eq_false, if_false, hall.mpr hle, if_true]
  · rintro ⟨i, hi⟩
    have hnot : (List.zip s.num mxs).all (fun p => decide (p.1 ≤ p.2)) = false := by
      rw [← Bool.not_eq_true, hall]; intro hc; have := hc i; omega
    obtain ⟨s1, e1, i1, -⟩ := inv_getPtsList h
    obtain ⟨s2, e2, i2, -⟩ := inv_getFeaturesList i1
    obtain ⟨s3, e3, i3, -⟩ := inv_getNormalsList i2
    have hb : ∀ i, mxs.getD i 0 < a.num.getD i 0 → ∀ j ∈ draws.getD i [], j < a.num.getD i 0 :=
      fun i hi => (hw.2 i hi).2.2
    have rp := subsampleRows_ok (num := a.num) (d := a.pts.data) zp rfl hm hw.1 hb
    have ro : ∀ {X : Type} {r : Option (List (List X))} (z : X), Aligned a.pts.data r →
        subsampleOpt a.num mxs draws r = .ok (r.map (fun d => Abs.kept a.num mxs draws d z)) := by
      intro X r z hr
      cases r with
      | none => rfl
      | some d =>
        simp only [subsampleOpt, subsampleRows_ok (num := a.num) (d := d) z (hr d rfl) hm hw.1 hb]
        rfl
    have al : ∀ {X : Type} {r : Option (List (List X))} (z : X), Aligned a.pts.data r →
        Aligned (Abs.kept a.num mxs draws a.pts.data zp)
          (r.map (fun d => Abs.kept a.num mxs draws d z)) := by
      intro X r z hr d hd
      obtain ⟨c, hc, rfl⟩ := Option.map_eq_some_iff.mp hd
      rw [kept_lens (num := a.num) z (hr c hc) hw, kept_lens (num := a.num) zp rfl hw]
    obtain ⟨c, ec, hc⟩ := holds_mk ops _ _ _ (al zn (aligned_n h.wf)) (al zf (aligned_f h.wf))
    refine ⟨c, s3, ?_, i3, hc, kept_lens zp rfl hw⟩
    have rn := ro zn (aligned_n h.wf)
    have rf := ro zf (aligned_f h.wf)
    simp only [Abs.nData, Abs.fData] at rn rf ec
    simp only [subsample, hN, ne_eq, not_true_eq_false, if_false, hnot, Bool.false_eq_true, e1, e2,
      e3, bind, Except.bind, i3.hnum, rp, rn, rf, ec]

/-- A list of limits of the wrong length is rejected. -/
theorem subsample_err {ops : Ops P Q F K} {a : Abs P Q F} {s : State P Q F} (h : Inv ops a s)
    (mxs : List Nat) (draws : List (List Nat)) (hm : mxs.length ≠ a.pts.data.length) :
    subsample mxs draws s = .error .valueError := by
  simp [subsample, h.hN, hm]

/-- **C13 (scene).** Joining a batch as a scene: with one cloud the object itself; otherwise one
cloud made of all points in order, with all normals and features in the same order. -/
theorem joinScene_spec {ops : Ops P Q F K} {a : Abs P Q F} {s : State P Q F} (h : Inv ops a s) :
    (a.pts.data.length = 1 → joinScene s = .ok s) ∧
    (a.pts.data.length ≠ 1 → ∃ c, joinScene s = .ok c ∧
      Inv ops (Abs.ofPadded a.pts.data.flatten.length [a.pts.data.flatten]
        (a.nData.map (fun d => [d.flatten])) (a.fData.map (fun d => [d.flatten]))) c) := by
  constructor
  · intro h1; simp [joinScene, h.hN, h1]
  · intro h1
    obtain ⟨s', e, i, h1', h2, h3, h4⟩ := inv_computePacked h
    have e2 : getPacked s = .ok (a.packed, s') := by
      simp only [getPacked, e, bind, Except.bind, h1', h2, h3, h4]
    have ml : ∀ {X : Type} {r : Option (List (List X))}, Aligned a.pts.data r →
        (auxOfPadded a.pts.data.flatten.length (r.map (fun d => [d.flatten]))).MeansPadded
          [a.pts.data.flatten].length a.pts.data.flatten.length (r.map (fun d => [d.flatten])) := by
      intro X r hr
      refine ⟨rfl, ?_⟩
      intro u hu
      obtain ⟨c, hc, rfl⟩ := Option.map_eq_some_iff.mp hu
      refine ⟨rfl, ?_⟩
      intro x hx
      simp only [List.mem_singleton] at hx
      subst hx
      rw [List.length_flatten, List.length_flatten, hr c hc]
    obtain ⟨c, ec, ic⟩ := inv_mk_padded ops a.pts.data.flatten.length [a.pts.data.flatten] _ _ _ _
      (by simp) (by simp) (ml (aligned_n h.wf)) (ml (aligned_f h.wf))
    refine ⟨c, ?_, ic⟩
    have hn : (a.packed.normals).map (fun n => [n]) = a.nData.map (fun d => [d.flatten]) := by
      simp [Abs.packed, Abs.nData, Function.comp_def]
    have hf : (a.packed.features).map (fun n => [n]) = a.fData.map (fun d => [d.flatten]) := by
      simp [Abs.packed, Abs.fData, Function.comp_def]
    have hp : a.packed.pts = some a.pts.data.flatten := rfl
    simp only [joinScene, h.hN, h1, if_false, e2, bind, Except.bind, hp, hn, hf, ec]

theorem zipWith_blocks {X B : Type} (g : B → X → Bool) (bs : List B) (l : List (List X))
    (h : bs.length = l.length) :
    List.zipWith g (List.zipWith (fun b n => List.replicate n b) bs (l.map List.length)).flatten
      l.flatten = (List.zipWith (fun b x => x.map (g b)) bs l).flatten := by
  induction l generalizing bs with
  | nil => simp
  | cons x l ih =>
    cases bs with
    | nil => simp at h
    | cons b bs =>
      simp only [List.map_cons, List.zipWith_cons_cons, List.flatten_cons]
      rw [List.zipWith_append (by simp), ih bs (by simpa using h)]
      congr 1
      clear ih h
      induction x with
      | nil => rfl
      | cons y x ih => simp [List.replicate_succ, ih]

/-- **C13 (`inside_box`).** With one valid box, or one valid box per cloud, the packed answer for
each point is the test against its own cloud's box. -/
theorem insideBox_spec {B : Type} {ops : Ops P Q F K} {a : Abs P Q F} {s : State P Q F}
    (h : Inv ops a s) (valid : B → Bool) (inside : B → P → Bool) :
    (∀ b, valid b = true → ∃ s', insideBox valid inside (.one b) s
      = .ok ((a.pts.data.map (fun x => x.map (inside b))).flatten, s') ∧ Inv ops a s') ∧
    (∀ bs : List B, bs.length = a.pts.data.length → (∀ b ∈ bs, valid b = true) →
      ∃ s', insideBox valid inside (.perCloud bs) s
      = .ok ((List.zipWith (fun b x => x.map (inside b)) bs a.pts.data).flatten, s') ∧ Inv ops a s') ∧
    (∀ bs : List B, bs.length ≠ 1 → bs.length ≠ a.pts.data.length →
      insideBox valid inside (.perCloud bs) s = .error .valueError) := by
  obtain ⟨s', e, i, h1', h2, h3, h4⟩ := inv_computePacked h
  have e2 : getPacked s = .ok (a.packed, s') := by
    simp only [getPacked, e, bind, Except.bind, h1', h2, h3, h4]
  have hp : a.packed.pts = some a.pts.data.flatten := rfl
  refine ⟨?_, ?_, ?_⟩
  · intro b hb
    refine ⟨s', ?_, i⟩
    simp [insideBox, hb, e2, bind, Except.bind, hp, List.map_flatten]
  · intro bs hl hv
    refine ⟨s', ?_, i⟩
    have hva : bs.all valid = true := List.all_eq_true.mpr hv
    have hll : bs.length = s.N := by rw [h.hN, hl]
    have hlen : (List.zipWith (fun b n => List.replicate n b) bs (a.pts.data.map List.length)).flatten.length
        = a.pts.data.flatten.length := by
      rw [List.length_flatten, List.length_flatten]
      congr 1
      apply List.ext_getElem
      · simp; omega
      · intro i h1 h2; simp
    match bs, hl with
    | [], hl => exact absurd (List.length_eq_zero_iff.mp hl.symm) h.wf.ne
    | [b], hl =>
      obtain ⟨x, hx⟩ := List.length_eq_one_iff.mp hl.symm
      have hb := hv b (by simp)
      simp [insideBox, hb, e2, bind, Except.bind, hp, hx]
    | b :: b' :: bs', hl =>
      have hnum : s'.num = a.pts.data.map List.length := i.hnum
      simp only [insideBox, hll, hva, e2, bind, Except.bind, hp, hnum, hlen, ne_eq, not_true_eq_false,
        and_false, if_false, Bool.not_true, Bool.false_eq_true]
      rw [zipWith_blocks inside _ _ hl]
  · intro bs h1 h2
    simp [insideBox, h1, h.hN, h2]

/-! ## Rejections -/

/-- `update_padded` with a wrong shape, and a full `offset_` of the wrong length, raise. -/
theorem rejects {ops : Ops P Q F K} {a : Abs P Q F} {s : State P Q F} (h : Inv ops a s) :
    (∀ np nn nf, ¬ a.Shape np → updatePadded np nn nf s = .error .valueError) ∧
    (∀ d : List P, d.length ≠ a.pts.data.flatten.length →
      offset ops (.full d) s = .error .valueError) ∧
    (∀ k : List K, k.length < a.pts.data.length → scale ops k s = .error .indexError) := by
  refine ⟨?_, ?_, ?_⟩
  · intro np nn nf hs
    have : badShape s.N s.maxP np = true := by
      by_contra hc
      apply hs
      rw [Bool.not_eq_true] at hc
      simp only [badShape, Bool.or_eq_false_iff, bne_eq_false_iff_eq, List.any_eq_false,
        bne_iff_ne, ne_eq, not_not] at hc
      rw [h.hN, h.hP] at hc
      exact hc
    simp [updatePadded, this]
  · intro d hd
    obtain ⟨s', e, i, h1', -⟩ := inv_computePacked h
    have hp : s'.ptsPacked = some a.pts.data.flatten := h1'
    simp only [offset, e, bind, Except.bind, hp, ne_eq, hd, not_false_eq_true, if_true]
  · intro k hk
    obtain ⟨s1, e1, -⟩ := inv_getPtsList h
    simp only [scale, e1, bind, Except.bind, hk, if_true]

theorem mapM_checkEntry_err {num : List Nat} {l : List (Option (List Q))}
    (h : ∃ (i : Nat) (n : Nat) (d : Option (List Q)), num[i]? = some n ∧ l[i]? = some d ∧
      ¬ (d = none ∧ n = 0 ∨ ∃ r : List Q, d = some r ∧ r.length = n)) :
    (List.zip num l).mapM (fun pd => checkEntry pd.1 pd.2) = .error .valueError := by
  induction num generalizing l with
  | nil => obtain ⟨i, n, d, h1, _⟩ := h; simp at h1
  | cons m num ih =>
    cases l with
    | nil => obtain ⟨i, n, d, _, h1, _⟩ := h; simp at h1
    | cons e l =>
      rw [List.zip_cons_cons, List.mapM_cons]
      by_cases hg : e = none ∧ m = 0 ∨ ∃ r : List Q, e = some r ∧ r.length = m
      · have : ∃ b, checkEntry m e = .ok b := by
          rcases hg with ⟨rfl, rfl⟩ | ⟨r, rfl, rfl⟩
          · exact ⟨false, by simp [checkEntry]⟩
          · exact ⟨true, by simp [checkEntry]⟩
        obtain ⟨b, hb⟩ := this
        obtain ⟨i, n, d, h1, h2, h3⟩ := h
        cases i with
        | zero =>
          simp only [List.getElem?_cons_zero, Option.some.injEq] at h1 h2
          subst h1; subst h2; exact absurd hg h3
        | succ i =>
          rw [hb, ih ⟨i, n, d, by simpa using h1, by simpa using h2, h3⟩]
          rfl
      · have : checkEntry m e = .error .valueError := by
          cases e with
          | none =>
            have : 0 < m := by
              rcases Nat.eq_zero_or_pos m with hm | hm
              · exact absurd (Or.inl ⟨rfl, hm⟩) hg
              · exact hm
            simp [checkEntry, this]
          | some r =>
            have : m ≠ r.length := fun hc => hg (Or.inr ⟨r, rfl, hc.symm⟩)
            simp [checkEntry, this]
        rw [this]; rfl

/-- Normals whose number of entries is wrong, or with an entry of the wrong number of rows (or
missing for a non-empty cloud), are rejected by the constructor. -/
theorem mk_rejects (pts : List (List P)) (hne : pts ≠ []) (l : List (Option (List Q))) (f : AuxIn F)
    (h : l.length ≠ pts.length ∨ ∃ (i : Nat) (n : Nat) (d : Option (List Q)), (pts.map List.length)[i]? = some n ∧ l[i]? = some d ∧
      ¬ (d = none ∧ n = 0 ∨ ∃ r : List Q, d = some r ∧ r.length = n)) :
    mk (.list pts) (.list l) f = .error .valueError := by
  have hN : pts.length ≠ 0 := fun hc => hne (List.length_eq_zero_iff.mp hc)
  have hp : parseAux pts.length (maxNat (pts.map List.length)) (pts.map List.length) (.list l)
      = .error .valueError := by
    simp only [parseAux, if_neg hN, parseAuxList]
    by_cases hl : l.length ≠ pts.length
    · rw [if_pos hl]
    · rw [if_neg hl, mapM_checkEntry_err (h.resolve_left hl)]
      rfl
  have hm : (mk (.list pts) (.list l) f : Except Err (State P Q F)) =
      (parseAux pts.length (maxNat (pts.map List.length)) (pts.map List.length) (.list l) >>= fun xn =>
        parseAux pts.length (maxNat (pts.map List.length)) (pts.map List.length) f >>= fun xf =>
        .ok { (parsePts (.list pts) : State P Q F) with normals := xn, features := xf }) := rfl
  rw [hm, hp]
  rfl

/-! ## Examples -/

/-- Concrete operations for the examples. -/
def exOps : Ops Nat Nat Nat Nat := ⟨0, 0, 0, (· + ·), (· * ·)⟩

/-- Three clouds, the second empty, with normals (one entry `None`) and features. -/
def exPts : List (List Nat) := [[10, 11, 12], [], [20]]

example : ∃ s s', mk (.list exPts) (.list [some [1, 2, 3], none, some [4]]) .none = .ok s ∧
    runAll exOps [.padded, .offset (.vec 5), .normalsList, .packed, .updatePadded [[7, 7, 7], [7, 7, 7], [8, 8, 8]] none none true,
      .ptsList, .padded, .clone true, .packed] s
    = .ok ([.padded ⟨some [[10, 11, 12], [0, 0, 0], [20, 0, 0]], some [[1, 2, 3], [0, 0, 0], [4, 0, 0]], none⟩,
        .unit, .normals (some [[1, 2, 3], [], [4]]),
        .packed ⟨some [15, 16, 17, 25], some [1, 2, 3, 4], none, some ([0, 0, 0, 2], [0, 3, 3])⟩,
        .unit, .pts [[7, 7, 7], [], [8]],
        .padded ⟨some [[7, 7, 7], [7, 7, 7], [8, 8, 8]], some [[1, 2, 3], [0, 0, 0], [4, 0, 0]], none⟩,
        .unit, .packed ⟨some [7, 7, 7, 8], some [1, 2, 3, 4], none, some ([0, 0, 0, 2], [0, 3, 3])⟩], s') := by
  obtain ⟨s, s', h1, h2⟩ := clouds_list_history exOps exPts (.list [some [1, 2, 3], none, some [4]])
    (.none : AuxIn Nat) (some [[1, 2, 3], [], [4]]) none ⟨[10, 11, 12], by simp [exPts], by simp⟩
    ⟨_, rfl, rfl, .cons (Or.inl rfl) (.cons (Or.inr ⟨rfl, rfl⟩) (.cons (Or.inl rfl) .nil))⟩ rfl
    [.padded, .offset (.vec 5), .normalsList, .packed,
      .updatePadded [[7, 7, 7], [7, 7, 7], [8, 8, 8]] none none true,
      .ptsList, .padded, .clone true, .packed]
    ⟨trivial, trivial, trivial, trivial,
      ⟨⟨rfl, by decide⟩, by simp, by simp, fun _ => Or.inr rfl, fun _ => Or.inl rfl⟩,
      trivial, trivial, trivial, trivial, trivial⟩
  exact ⟨s, s', h1, h2⟩

/-- The dichotomy is real: the same constructor arguments, two orders of the same two calls. -/
example :
    (do let s : State Nat Nat Nat ← mk (.list exPts) (.padded 3 [[1, 2, 3], [9, 9, 9], [4, 9, 9]]) .none
        let (o, _) ← runAll exOps [.normalsList, .padded] s
        .ok o)
      = Except.ok (ε := Err) [.normals (some [[1, 2, 3], [], [4]]),
        .padded ⟨some [[10, 11, 12], [0, 0, 0], [20, 0, 0]], some [[1, 2, 3], [0, 0, 0], [4, 0, 0]], none⟩] ∧
    (do let s : State Nat Nat Nat ← mk (.list exPts) (.padded 3 [[1, 2, 3], [9, 9, 9], [4, 9, 9]]) .none
        let (o, _) ← runAll exOps [.padded, .normalsList] s
        .ok o)
      = Except.ok (ε := Err) [.padded ⟨some [[10, 11, 12], [0, 0, 0], [20, 0, 0]], none, none⟩,
        .normals none] := ⟨rfl, rfl⟩

example : (do let s : State Nat Nat Nat ← mk (.list exPts) (.list [some [1, 2, 3], none, some [4]]) .none
              let (c, _) ← subsample [2, 5, 5] [[2, 0], [], []] s
              let (n, c) ← getNormalsList c
              let (p, _) ← getPtsList c
              .ok (p, n))
    = Except.ok (ε := Err) ([[12, 10], [], [20]], some [[3, 1], [], [4]]) := rfl

example : (do let s : State Nat Nat Nat ← mk (.list exPts) (.list [some [1, 2, 3], none, some [4]]) .none
              let c ← joinScene s
              let (v, _) ← getPacked c
              .ok v)
    = Except.ok (ε := Err) ⟨some [10, 11, 12, 20], some [1, 2, 3, 4], none, some ([0, 0, 0, 0], [0])⟩ := rfl

end P3D.Clouds
