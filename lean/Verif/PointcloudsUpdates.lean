/- `Pointclouds` updates and constructors refine their specification (helpers for
`PointcloudsProps`). -/
import Verif.PointcloudsRefine
import Verif.MeshesCtor

namespace P3D.Clouds

open P3D.StructUtils
open P3D.Meshes (allSame maxNat overwritePadded Offset Index Coh coh_some coh_none
  zipWith_take_append listToPadded_max listToPacked_eq packedToList_eq reshapeLike_zipWith
  reshapeLike_lengths reshapeLike_flatten overwritePadded_eq map_lengths_zipWith_map
  maxNat_replicate maxNat_ge)
open P3D.Meshes.Abs (meshIdx firsts reshapeLike)

variable {P Q F K : Type}

/-! ## Specification of the updates -/

/-- New coordinates for the points, padding unchanged. -/
def Abs.withPts (a : Abs P Q F) (nd : List (List P)) : Abs P Q F :=
  { a with pts := { data := nd, pad := a.pts.pad } }

/-- Adding one vector to every point. -/
def Abs.translate (ops : Ops P Q F K) (t : P) (a : Abs P Q F) : Abs P Q F :=
  a.withPts (a.pts.data.map (fun v => v.map (fun p => ops.add p t)))

/-- Adding one offset per point. -/
def Abs.offset (ops : Ops P Q F K) (d : List P) (a : Abs P Q F) : Abs P Q F :=
  a.withPts (List.zipWith (List.zipWith ops.add) a.pts.data (reshapeLike a.pts.data d))

/-- Scaling cloud `i` by the `i`-th factor. -/
def Abs.scale (ops : Ops P Q F K) (k : List K) (a : Abs P Q F) : Abs P Q F :=
  a.withPts (List.zipWith (fun c v => v.map (ops.smul c)) k a.pts.data)

/-- A column replaced by a new padded tensor, or kept. -/
def replaceCol {X : Type} (num : List Nat) (old : Option (Col X)) (t : Option (List (List X))) :
    Option (Col X) :=
  match t with
  | none => old
  | some t => some (Col.ofPadded num t)

/-- Replacing the padded tensors; normals and features are kept when not given. -/
def Abs.replace (np : List (List P)) (nn : Option (List (List Q))) (nf : Option (List (List F)))
    (a : Abs P Q F) : Abs P Q F where
  pts := Col.ofPadded a.num np
  normals := replaceCol a.num a.normals nn
  features := replaceCol a.num a.features nf
  padMade := true

/-- Replacing the normals. -/
def Abs.setNormals (est : List (List Q)) (a : Abs P Q F) : Abs P Q F :=
  { a with normals := some (Col.ofPadded a.num est), padMade := true }

/-! ## Refinement -/

theorem withPts_num {a : Abs P Q F} {nd : List (List P)}
    (hl : nd.map List.length = a.num) : (a.withPts nd).num = a.num := hl

theorem zipWith_append_lengths {X : Type} {x y pad : List (List X)}
    (hl : y.map List.length = x.map List.length) :
    (List.zipWith (· ++ ·) y pad).map List.length = (List.zipWith (· ++ ·) x pad).map List.length := by
  induction x generalizing y pad with
  | nil => cases y <;> simp_all
  | cons a x ih =>
    cases y with
    | nil => simp at hl
    | cons b y =>
      cases pad with
      | nil => simp
      | cons p pad =>
        simp only [List.map_cons, List.cons.injEq] at hl
        simp [hl.1, ih hl.2]

theorem inv_withPts {ops : Ops P Q F K} {a : Abs P Q F} {s : State P Q F} (h : Inv ops a s)
    {nd : List (List P)} (hl : nd.map List.length = a.num) :
    Inv ops (a.withPts nd) { s with
      ptsList := some nd
      ptsPacked := s.ptsPacked.map (fun _ => nd.flatten)
      ptsPadded := s.ptsPadded.map (fun pp => overwritePadded pp nd) } := by
  have hnum := withPts_num hl
  have hlen : nd.length = a.pts.data.length := by
    have := congrArg List.length hl; simpa [Abs.num] using this
  have hpk : (Option.map (fun _ => nd.flatten) s.ptsPacked).isSome = s.ptsPacked.isSome := by simp
  constructor
  · refine ⟨?_, ?_, ?_, ?_⟩
    · intro hc
      have : nd = [] := hc
      rw [this] at hlen
      exact h.wf.ne (List.length_eq_zero_iff.mp hlen.symm)
    · refine ⟨by rw [hnum]; exact hl, by rw [hnum]; exact h.wf.pts.lenPad, ?_⟩
      rw [hnum]
      have h1 := zipWith_append_lengths (pad := a.pts.pad) (hl.trans rfl : nd.map List.length = a.pts.data.map List.length)
      intro r hr
      have : r.length ∈ (List.zipWith (· ++ ·) nd a.pts.pad).map List.length :=
        List.mem_map_of_mem hr
      rw [h1] at this
      obtain ⟨r', hr', e⟩ := List.mem_map.mp this
      rw [← e]; exact h.wf.pts.width r' hr'
    · rw [hnum]; exact h.wf.normals
    · rw [hnum]; exact h.wf.features
  · show s.N = nd.length
    rw [hlen, h.hN]
  · show s.maxP = maxNat (a.withPts nd).num
    rw [hnum]; exact h.hP
  · exact h.hvalid
  · rw [hnum]; exact h.hnum
  · rw [hnum]; exact h.heq
  · show (Option.map _ s.ptsPadded).isSome = a.padMade
    rw [Option.isSome_map]; exact h.hmade
  · exact coh_some _
  · intro x hx
    show x = List.zipWith (· ++ ·) nd a.pts.pad
    obtain ⟨p, hp, e⟩ := Option.map_eq_some_iff.mp hx
    rw [← e, h.hp p hp]
    exact overwritePadded_eq hl
  · intro hc
    refine ⟨rfl, ?_⟩
    have h2 := (h.hdata hc).2
    have hpad : a.pts.pad = a.pts.data.map (fun y => List.replicate (a.maxP - y.length) ops.zero) := by
      rw [h2]; rfl
    show ({ data := nd, pad := a.pts.pad } : Col P) = Col.ofList (maxNat (a.withPts nd).num) ops.zero nd
    rw [hnum]
    simp only [Col.ofList, Col.mk.injEq, true_and]
    rw [hpad]
    have : ∀ (l : List (List P)), l.map (fun y => List.replicate (a.maxP - y.length) ops.zero)
        = (l.map List.length).map (fun n => List.replicate (a.maxP - n) ops.zero) := by
      intro l; rw [List.map_map]; rfl
    show _ = nd.map (fun y => List.replicate (a.maxP - y.length) ops.zero)
    rw [this, this, hl]; rfl
  · intro x hx
    obtain ⟨p, hp, e⟩ := Option.map_eq_some_iff.mp hx
    rw [← e]; rfl
  · rw [hnum]; exact h.hci
  · intro hc; rw [hpk] at hc; exact h.hcp hc
  · intro _; rfl
  · have : (a.withPts nd).padToPacked = a.padToPacked := by
      simp only [Abs.padToPacked, Abs.maxP, hnum]
    rw [this]; exact h.hpp
  · rw [hnum]; simp only [hpk]; exact h.hn
  · rw [hnum]; simp only [hpk]; exact h.hf

theorem inv_offset_full {ops : Ops P Q F K} {a : Abs P Q F} {s : State P Q F} (h : Inv ops a s)
    (d : List P) (hd : d.length = a.pts.data.flatten.length) :
    ∃ s', offset ops (.full d) s = .ok s' ∧ Inv ops (a.offset ops d) s' := by
  obtain ⟨s1, e1, i1, p1, -, -, -⟩ := inv_computePacked h
  have p1' : s1.ptsPacked = some a.pts.data.flatten := p1
  have hz := reshapeLike_zipWith ops.add a.pts.data d hd
  have hlz : (List.zipWith ops.add a.pts.data.flatten d).length = a.pts.data.flatten.length := by
    simp [hd]
  have hlen : (List.zipWith (List.zipWith ops.add) a.pts.data (reshapeLike a.pts.data d)).map
      List.length = a.num := by
    rw [← hz, reshapeLike_lengths _ _ hlz]; rfl
  have hflat : (List.zipWith (List.zipWith ops.add) a.pts.data (reshapeLike a.pts.data d)).flatten
      = List.zipWith ops.add a.pts.data.flatten d := by
    rw [← hz, reshapeLike_flatten _ _ hlz]
  have hsplit : packedToList (List.zipWith ops.add a.pts.data.flatten d) s1.num = .ok
      (List.zipWith (List.zipWith ops.add) a.pts.data (reshapeLike a.pts.data d)) := by
    rw [i1.hnum, Abs.num, packedToList_eq _ _ (by rw [hlz, List.length_flatten]), hz]
  refine ⟨_, ?_, inv_withPts i1 hlen⟩
  simp only [offset, e1, bind, Except.bind, p1', hd, ne_eq, not_true_eq_false, if_false, hsplit]
  rw [hflat]
  rfl

theorem inv_offset_vec {ops : Ops P Q F K} {a : Abs P Q F} {s : State P Q F} (h : Inv ops a s)
    (t : P) :
    ∃ s', offset ops (.vec t) s = .ok s' ∧ Inv ops (a.translate ops t) s' := by
  obtain ⟨s1, e1, i1, p1, -, -, -⟩ := inv_computePacked h
  have p1' : s1.ptsPacked = some a.pts.data.flatten := p1
  obtain ⟨s', e, i⟩ := inv_offset_full h (List.replicate a.pts.data.flatten.length t) (by simp)
  refine ⟨s', ?_, ?_⟩
  · rw [← e]
    simp only [offset, e1, bind, Except.bind, p1']
  · have : a.offset ops (List.replicate a.pts.data.flatten.length t) = a.translate ops t := by
      unfold Abs.offset Abs.translate
      congr 1
      have : ∀ (l : List (List P)), List.zipWith (List.zipWith ops.add) l
          (reshapeLike l (List.replicate l.flatten.length t))
          = l.map (fun v => v.map (fun p => ops.add p t)) := by
        intro l
        induction l with
        | nil => rfl
        | cons v l ih =>
          have hz : ∀ (v : List P), List.zipWith ops.add v (List.replicate v.length t)
              = v.map (fun p => ops.add p t) := by
            intro v
            induction v with
            | nil => rfl
            | cons x v ih => simp [List.replicate_succ, ih]
          simp only [reshapeLike, List.flatten_cons, List.length_append, List.take_replicate,
            List.drop_replicate, List.zipWith_cons_cons, List.map_cons]
          rw [show min v.length (v.length + l.flatten.length) = v.length by omega,
            show v.length + l.flatten.length - v.length = l.flatten.length by omega, hz, ih]
      exact this _
    rw [← this]; exact i

theorem inv_scale {ops : Ops P Q F K} {a : Abs P Q F} {s : State P Q F} (h : Inv ops a s)
    (k : List K) (hk : a.pts.data.length ≤ k.length) :
    ∃ s', scale ops k s = .ok s' ∧ Inv ops (a.scale ops k) s' := by
  obtain ⟨s1, e1, i1, -⟩ := inv_getPtsList h
  have hlen := map_lengths_zipWith_map (fun c p => ops.smul c p) k a.pts.data hk
  refine ⟨_, ?_, inv_withPts i1 hlen⟩
  simp only [scale, e1, bind, Except.bind]
  rw [if_neg (by omega)]

theorem ofPadded_fits {num : List Nat} {t : List (List Q)} (hl : t.length = num.length)
    (hw : ∀ r ∈ t, r.length = maxNat num) :
    (Col.ofPadded num t).Fits num ∧ (Col.ofPadded num t).padded = t := by
  have hlen : List.map List.length (List.zipWith (fun (r : List Q) n => r.take n) t num) = num := by
    apply List.ext_getElem
    · simp [hl]
    · intro i h1 h2
      have h3 : i < t.length := by omega
      have : t[i].length = maxNat num := hw _ (List.getElem_mem h3)
      have h4 : num[i] ≤ maxNat num := maxNat_ge (List.getElem_mem h2)
      simp only [List.getElem_map, List.getElem_zipWith, List.length_take, this]
      omega
  have hpad : (Col.ofPadded num t).padded = t := by
    apply List.ext_getElem
    · simp [Col.padded, Col.ofPadded, hl]
    · intro i h1 h2
      simp [Col.padded, Col.ofPadded]
  refine ⟨⟨hlen, by simp [Col.ofPadded, hl], ?_⟩, hpad⟩
  rw [hpad]; exact hw

theorem ofPadded_cut {num : List Nat} {t : List (List Q)} (hl : t.length = num.length) :
    paddedToList t (some num) = .ok (Col.ofPadded num t).data := by
  simp only [paddedToList, Col.ofPadded]
  rw [if_neg (by omega)]

/-- A tensor has the right shape to replace a padded tensor of the batch. -/
def Abs.Shape (a : Abs P Q F) {X : Type} (t : List (List X)) : Prop :=
  t.length = a.pts.data.length ∧ ∀ r ∈ t, r.length = a.maxP

theorem badShape_false {N m : Nat} {t : List (List Q)} (h1 : t.length = N)
    (h2 : ∀ r ∈ t, r.length = m) : badShape N m t = false := by
  simp only [badShape, Bool.or_eq_false_iff, bne_eq_false_iff_eq, List.any_eq_false]
  exact ⟨h1, fun r hr => by simp [h2 r hr]⟩

theorem auxInv_update {num : List Nat} {zero : Q} {pm pk : Bool} {c : Option (Col Q)} {x : Aux Q}
    (h : AuxInv num zero pm pk c x) (t : Option (List (List Q)))
    (ht : ∀ u, t = some u → u.length = num.length ∧ ∀ r ∈ u, r.length = maxNat num)
    (hk : t = none → c = none ∨ pm = true) :
    AuxInv num zero true false (replaceCol num c t) (updateAux x t) := by
  cases t with
  | none =>
    rcases hk rfl with rfl | rfl
    · exact ⟨h.1, h.2.1, fun hc => by simp at hc⟩
    · cases c with
      | none => exact ⟨h.1, h.2.1, fun hc => by simp at hc⟩
      | some d => exact ⟨h.1, h.2.1, fun hc => by simp at hc, fun hc => by simp at hc⟩
  | some u =>
    obtain ⟨h1, h2⟩ := ht u rfl
    refine ⟨coh_none _, fun _ => ?_, fun hc => by simp at hc, fun hc => by simp at hc⟩
    rw [(ofPadded_fits h1 h2).2]; rfl

theorem inv_updatePadded {ops : Ops P Q F K} {a : Abs P Q F} {s : State P Q F} (h : Inv ops a s)
    (np : List (List P)) (nn : Option (List (List Q))) (nf : Option (List (List F)))
    (hp : a.Shape np) (hn : ∀ u, nn = some u → a.Shape u) (hf : ∀ u, nf = some u → a.Shape u)
    (kn : nn = none → a.normals = none ∨ a.padMade = true)
    (kf : nf = none → a.features = none ∨ a.padMade = true) :
    ∃ s', updatePadded np nn nf s = .ok s' ∧ Inv ops (a.replace np nn nf) s' := by
  have hnl : a.num.length = a.pts.data.length := by simp [Abs.num]
  have b1 : badShape s.N s.maxP np = false :=
    badShape_false (by rw [h.hN]; exact hp.1) (by rw [h.hP]; exact hp.2)
  have b2 : nn.any (badShape s.N s.maxP) = false := by
    cases nn with
    | none => rfl
    | some u =>
      exact badShape_false (by rw [h.hN]; exact (hn u rfl).1) (by rw [h.hP]; exact (hn u rfl).2)
  have b3 : nf.any (badShape s.N s.maxP) = false := by
    cases nf with
    | none => rfl
    | some u =>
      exact badShape_false (by rw [h.hN]; exact (hf u rfl).1) (by rw [h.hP]; exact (hf u rfl).2)
  obtain ⟨fp, ep⟩ := ofPadded_fits (hp.1.trans hnl.symm) hp.2
  have hnum : (a.replace np nn nf).num = a.num := fp.lens
  refine ⟨_, by simp only [updatePadded, b1, b2, b3, Bool.false_eq_true, if_false]; rfl, ?_⟩
  constructor
  · refine ⟨?_, by rw [hnum]; exact fp, ?_, ?_⟩
    · intro hc
      have := fp.lens
      rw [show (Col.ofPadded a.num np).data = [] from hc] at this
      exact num_ne h.wf this.symm
    · rw [hnum]
      intro c hc
      cases nn with
      | none => exact h.wf.normals c hc
      | some u =>
        have : some (Col.ofPadded a.num u) = some c := hc
        rw [← Option.some.inj this]
        exact (ofPadded_fits ((hn u rfl).1.trans hnl.symm) (hn u rfl).2).1
    · rw [hnum]
      intro c hc
      cases nf with
      | none => exact h.wf.features c hc
      | some u =>
        have : some (Col.ofPadded a.num u) = some c := hc
        rw [← Option.some.inj this]
        exact (ofPadded_fits ((hf u rfl).1.trans hnl.symm) (hf u rfl).2).1
  · show np.length = (Col.ofPadded a.num np).data.length
    rw [fp.lenData, hp.1, hnl]
  · rw [Abs.maxP, hnum]; exact h.hP
  · exact h.hvalid
  · rw [hnum]; exact h.hnum
  · intro hc; simp [Abs.replace] at hc
  · rfl
  · exact coh_none _
  · intro x hx
    have : np = x := Option.some.inj hx
    rw [← this]; exact ep.symm
  · intro hc; simp [Abs.replace] at hc
  · exact coh_none _
  · rw [hnum]; exact h.hci
  · intro hc; simp at hc
  · intro hc; simp at hc
  · have : (a.replace np nn nf).padToPacked = a.padToPacked := by
      simp only [Abs.padToPacked, Abs.maxP, hnum]
    rw [this]; exact h.hpp
  · rw [hnum]
    exact auxInv_update h.hn nn (fun u hu => ⟨(hn u hu).1.trans hnl.symm, (hn u hu).2⟩) kn
  · rw [hnum]
    exact auxInv_update h.hf nf (fun u hu => ⟨(hf u hu).1.trans hnl.symm, (hf u hu).2⟩) kf

theorem inv_assignNormals {ops : Ops P Q F K} {a : Abs P Q F} {s : State P Q F} (h : Inv ops a s)
    (est : List (List Q)) (hs : a.Shape est) :
    ∃ s', assignNormals ops est s = .ok s' ∧ Inv ops (a.setNormals est) s' := by
  obtain ⟨s1, e1, i1, -⟩ := inv_computePadded h
  have hnl : a.num.length = a.pts.data.length := by simp [Abs.num]
  have hN : s1.N ≠ 0 := by
    rw [i1.hN]; intro hc; exact h.wf.ne (List.length_eq_zero_iff.mp hc)
  have hpar : parseAux s1.N s1.maxP s1.num (.padded s1.maxP est) = .ok ⟨none, some est, none⟩ := by
    simp only [parseAux, if_neg hN]
    rw [if_neg (by rw [i1.hN]; exact fun hc => hc hs.1.symm)]
    simp
  obtain ⟨ff, ep⟩ := ofPadded_fits (hs.1.trans hnl.symm) hs.2
  have hcut := ofPadded_cut (hs.1.trans hnl.symm)
  have hnum1 : s1.num = a.num := i1.hnum
  rw [← hnum1] at hcut
  have hwf : (a.setNormals est).WF := by
    refine ⟨h.wf.ne, h.wf.pts, ?_, h.wf.features⟩
    intro c hc
    have : some (Col.ofPadded a.num est) = some c := hc
    rw [← Option.some.inj this]; exact ff
  have base : ∀ l pk, Coh l (Col.ofPadded s1.num est).data →
      (s1.ptsPacked.isSome = true → pk = some (Col.ofPadded s1.num est).data.flatten) →
      Inv ops (a.setNormals est)
        { s1 with normals := { list := l, padded := some est, packed := pk } } := by
    intro l pk hl hpk
    rw [hnum1] at hl hpk
    exact { i1 with
      wf := hwf
      hn := ⟨hl, fun _ => by rw [ep], fun hc => by simp [Abs.setNormals] at hc, hpk⟩ }
  by_cases hpl : s1.ptsList.isSome = true
  · by_cases hpk : s1.ptsPacked.isSome = true
    · refine ⟨_, ?_, base (some (Col.ofPadded s1.num est).data)
        (some (Col.ofPadded s1.num est).data.flatten) (coh_some _) (fun _ => rfl)⟩
      simp [assignNormals, e1, bind, Except.bind, hpar, hpl, getNormalsList, Aux.getList, hcut,
        hpk, Except.map]
    · refine ⟨_, ?_, base (some (Col.ofPadded s1.num est).data) none (coh_some _)
        (fun hc => absurd hc hpk)⟩
      simp [assignNormals, e1, bind, Except.bind, hpar, hpl, getNormalsList, Aux.getList, hcut,
        Except.map, hpk]
  · have hpk : ¬ s1.ptsPacked.isSome = true := fun hc => hpl (i1.hlp hc)
    refine ⟨_, ?_, base none none (coh_none _) (fun hc => absurd hc hpk)⟩
    simp [assignNormals, e1, bind, Except.bind, hpar, hpl, hpk]

/-! ## Constructors -/

/-- Specification of an auxiliary list argument: its entries are the rows of `rows`, except that an
entry for an empty cloud may be missing. -/
def ListMatches (num : List Nat) (l : List (Option (List Q))) (rows : List (List Q)) : Prop :=
  rows.map List.length = num ∧
  List.Forall₂ (fun d r => d = some r ∨ (d = none ∧ r = [])) l rows

theorem parseAuxList_ok {num : List Nat} {l : List (Option (List Q))} {rows : List (List Q)}
    (h : ListMatches num l rows) (hne : l.any Option.isSome = true) :
    parseAuxList num.length num l = .ok ⟨some rows, none, none⟩ := by
  obtain ⟨h1, h2⟩ := h
  have hlen : l.length = num.length := by rw [h2.length_eq, ← h1]; simp
  have hmap : l.map (fun d => d.getD []) = rows := by
    clear hne hlen h1
    induction h2 with
    | nil => rfl
    | cons hd _ ih =>
      rcases hd with rfl | ⟨rfl, rfl⟩ <;> simp [ih]
  have hm : (List.zip num l).mapM (fun pd => checkEntry pd.1 pd.2)
      = .ok ((List.zip num l).map (fun pd => pd.2.isSome)) := by
    apply mapM_ok
    clear hne hlen hmap
    induction h2 generalizing num with
    | nil => simp
    | @cons d r l' rows' hd _ ih =>
      cases num with
      | nil => simp at h1
      | cons n num =>
        simp only [List.map_cons, List.cons.injEq] at h1
        intro b hb
        rw [List.zip_cons_cons, List.mem_cons] at hb
        rcases hb with rfl | hb
        · rcases hd with rfl | ⟨rfl, rfl⟩
          · simp [checkEntry, h1.1]
          · have : n = 0 := by simpa using h1.1.symm
            simp [checkEntry, this]
        · exact ih h1.2 b hb
  have hany : ((List.zip num l).map (fun pd => pd.2.isSome)).any id = true := by
    have : (List.zip num l).map (fun pd => pd.2.isSome) = l.map Option.isSome := by
      have h3 : (List.zip num l).map Prod.snd = l := List.map_snd_zip (by omega)
      conv_rhs => rw [← h3]
      rw [List.map_map]; rfl
    rw [this, List.any_map]; exact hne
  simp only [parseAuxList, hlen, ne_eq, not_true_eq_false, if_false, hm, bind, Except.bind, hany,
    if_true, hmap]

theorem parseAux_ofList {c : Option (List (List Q))} {num : List Nat} (m : Nat) (hne : num ≠ [])
    (hc : ∀ d, c = some d → d.map List.length = num) :
    parseAux num.length m num (auxOfList c) = .ok ⟨c, none, none⟩ := by
  have hN : num.length ≠ 0 := fun h => hne (List.length_eq_zero_iff.mp h)
  cases c with
  | none => rfl
  | some d =>
    have hd := hc d rfl
    simp only [auxOfList, parseAux, if_neg hN]
    apply parseAuxList_ok
    · refine ⟨hd, ?_⟩
      rw [List.forall₂_map_left_iff]
      exact List.forall₂_same.mpr (fun _ _ => Or.inl rfl)
    · cases d with
      | nil => exact absurd hd.symm (by simpa using hne)
      | cons x d => simp

theorem parseAux_ofPadded {t : Option (List (List Q))} {N m : Nat} (num : List Nat) (hN : N ≠ 0)
    (ht : ∀ d, t = some d → d.length = N) :
    parseAux N m num (auxOfPadded m t) = .ok ⟨none, t, none⟩ := by
  cases t with
  | none => rfl
  | some d =>
    simp [auxOfPadded, parseAux, hN, ht d rfl]

theorem inv_clone {ops : Ops P Q F K} {a : Abs P Q F} {s : State P Q F} (h : Inv ops a s) :
    ∃ c s', clone ops s = .ok (c, s') ∧ Inv ops a c ∧ Inv ops a s' := by
  by_cases hl : s.ptsList.isSome = true
  · obtain ⟨s1, e1, i1, r1⟩ := inv_getPtsList h
    obtain ⟨s2, e2, i2, r2⟩ := inv_getNormalsList i1
    obtain ⟨s3, e3, i3, r3⟩ := inv_getFeaturesList i2
    have hnl : a.pts.data.length = (a.pts.data.map List.length).length := by simp
    have pn : parseAux a.pts.data.length (maxNat (a.pts.data.map List.length))
        (a.pts.data.map List.length) (auxOfList (a.normals.map Col.data))
        = .ok ⟨a.normals.map Col.data, none, none⟩ := by
      conv_lhs => rw [hnl]
      apply parseAux_ofList _ (num_ne h.wf)
      intro d hd
      obtain ⟨c, hc, rfl⟩ := Option.map_eq_some_iff.mp hd
      exact (h.wf.normals c hc).lens
    have pf : parseAux a.pts.data.length (maxNat (a.pts.data.map List.length))
        (a.pts.data.map List.length) (auxOfList (a.features.map Col.data))
        = .ok ⟨a.features.map Col.data, none, none⟩ := by
      conv_lhs => rw [hnl]
      apply parseAux_ofList _ (num_ne h.wf)
      intro d hd
      obtain ⟨c, hc, rfl⟩ := Option.map_eq_some_iff.mp hd
      exact (h.wf.features c hc).lens
    have hn3 : s3.normals.list = a.normals.map Col.data := by rw [r3, r2]
    have hf3 : s3.features.list = a.features.map Col.data := by rw [r3]
    refine ⟨{ s3 with ptsList := some a.pts.data, equisized := allSame a.num }, s3, ?_, ?_, i3⟩
    · simp only [clone, hl, if_true, e1, e2, e3, bind, Except.bind, mk, parsePts, pn, pf]
      have e : ∀ {X : Type} (o : Option X), (o <|> none) = o := by intro X o; cases o <;> rfl
      simp only [copyTensors, Aux.copyTensors, e, Except.ok.injEq, Prod.mk.injEq, and_true,
        State.mk.injEq, true_and]
      refine ⟨i3.hN.symm, i3.hP.symm, rfl, ?_, ?_⟩
      · rw [← hn3]
      · rw [← hf3]
    · exact { i3 with
        heq := fun _ hc => hc
        hl := coh_some _
        hdata := fun hc => ⟨rfl, (i3.hdata hc).2⟩
        hlp := fun _ => rfl }
  · have hln : s.ptsList = none := by simpa using hl
    have hm : a.padMade = true := by
      by_contra hc
      exact hl (h.hdata (by simpa using hc)).1
    have hs : s.ptsPadded.isSome = true := by rw [h.hmade, hm]
    obtain ⟨p, hp⟩ := Option.isSome_iff_exists.mp hs
    have hpe := h.hp p hp
    have hpk : s.ptsPacked = none := by
      cases hq : s.ptsPacked with
      | none => rfl
      | some q => exact absurd (h.hlp (by rw [hq]; rfl)) hl
    have hpl : a.pts.padded.length = a.pts.data.length := by
      have := h.wf.pts.lenPad
      simp [Col.padded, this, Abs.num]
    have hN : a.pts.padded.length ≠ 0 := by
      rw [hpl]; intro hc; exact h.wf.ne (List.length_eq_zero_iff.mp hc)
    have key : ∀ {X : Type} {zero : X} {pk : Bool} {c : Option (Col X)} {x : Aux X},
        (∀ d, c = some d → d.Fits a.num) → AuxInv a.num zero true pk c x →
        ∀ d, x.padded = some d → d.length = a.pts.padded.length := by
      intro X zero pk c x hf hx d hd
      cases c with
      | none => rw [hx.2.1] at hd; cases hd
      | some e =>
        rw [hx.2.1 rfl] at hd
        have := Option.some.inj hd
        have h1 := (hf e rfl).lenPad
        have h2 := (hf e rfl).lenData
        rw [← this, hpl]
        simp [Col.padded, h1, h2, Abs.num]
    have hn' := h.hn
    have hf' := h.hf
    rw [hm] at hn' hf'
    have pn := parseAux_ofPadded (t := s.normals.padded) (m := s.maxP)
      (List.replicate a.pts.padded.length s.maxP) hN (key h.wf.normals hn')
    have pf := parseAux_ofPadded (t := s.features.padded) (m := s.maxP)
      (List.replicate a.pts.padded.length s.maxP) hN (key h.wf.features hf')
    refine ⟨{ s with equisized := true
                     normals := { s.normals with list := none }
                     features := { s.features with list := none } }, s, ?_, ?_, h⟩
    · have hgp : getPadded ops s
          = .ok (⟨some a.pts.padded, s.normals.padded, s.features.padded⟩, s) := by
        simp only [getPadded, computePadded, hs, if_true, bind, Except.bind]
        rw [hp, hpe]
      have hcl : clone ops s = (do
          let (v, s) ← getPadded ops s
          match v.pts with
          | none => .error .assertionError
          | some pp =>
            let o ← mk (.padded s.maxP pp) (auxOfPadded s.maxP v.normals)
              (auxOfPadded s.maxP v.features)
            .ok (copyTensors s o, s)) := by
        rw [clone, if_neg hl]; rfl
      rw [hcl]
      simp only [hgp, bind, Except.bind, mk, parsePts, pn, pf]
      have e : ∀ {X : Type} (o : Option X), (o <|> none) = o := by intro X o; cases o <;> rfl
      have e' : ∀ {X : Type} (o : Option X), (o <|> o) = o := by intro X o; cases o <;> rfl
      rw [hpl, ← h.hN]
      have hsp : s.ptsPadded = some a.pts.padded := by rw [hp, hpe]
      simp only [copyTensors, Aux.copyTensors, e, e', hsp, hln]
    · have drop : ∀ {X : Type} {zero : X} {pk : Bool} {c : Option (Col X)} {x : Aux X},
          AuxInv a.num zero a.padMade pk c x →
          AuxInv a.num zero a.padMade pk c { x with list := none } := by
        intro X zero pk c x hx
        cases c with
        | none => exact ⟨rfl, hx.2.1, hx.2.2⟩
        | some d =>
          exact ⟨coh_none _, hx.2.1, fun hc => by rw [hm] at hc; simp at hc, hx.2.2.2⟩
      exact { h with
        heq := fun hc => by rw [hm] at hc; simp at hc
        hn := drop h.hn
        hf := drop h.hf }

/-- The batch described by lists. -/
def Abs.ofLists (ops : Ops P Q F K) (pts : List (List P)) (n : Option (List (List Q)))
    (f : Option (List (List F))) : Abs P Q F where
  pts := Col.ofList (maxNat (pts.map List.length)) ops.zero pts
  normals := n.map (Col.ofList (maxNat (pts.map List.length)) ops.zeroN)
  features := f.map (Col.ofList (maxNat (pts.map List.length)) ops.zeroF)
  padMade := false

/-- The batch described by padded tensors. -/
def Abs.ofPadded (w : Nat) (pts : List (List P)) (n : Option (List (List Q)))
    (f : Option (List (List F))) : Abs P Q F where
  pts := Col.ofPadded (List.replicate pts.length w) pts
  normals := n.map (Col.ofPadded (List.replicate pts.length w))
  features := f.map (Col.ofPadded (List.replicate pts.length w))
  padMade := true

theorem ofList_fits {num : List Nat} {zero : Q} {l : List (List Q)} (h : l.map List.length = num) :
    (Col.ofList (maxNat num) zero l).Fits num := by
  refine ⟨h, by rw [← h]; simp [Col.ofList], ?_⟩
  intro r hr
  obtain ⟨i, hi, rfl⟩ := List.getElem_of_mem hr
  have hil : i < l.length := by simp [Col.padded, Col.ofList] at hi; exact hi
  have : l[i].length ≤ maxNat num := maxNat_ge (by
    rw [← h]; exact List.mem_map_of_mem (List.getElem_mem hil))
  simp [Col.padded, Col.ofList]
  omega

/-- Auxiliary argument that means the rows `rows` (list form). -/
def AuxIn.Means (num : List Nat) (rows : Option (List (List Q))) : AuxIn Q → Prop
  | .none => rows = Option.none
  | .list l => ∃ r, rows = some r ∧ ListMatches num l r
  | .padded _ _ => False

theorem listMatches_some {num : List Nat} {l : List (Option (List Q))} {r : List (List Q)}
    (h : ListMatches num l r) (hne : ∃ n ∈ num, n ≠ 0) : l.any Option.isSome = true := by
  obtain ⟨h1, h2⟩ := h
  obtain ⟨n, hn, h0⟩ := hne
  rw [← h1] at hn
  obtain ⟨x, hx, rfl⟩ := List.mem_map.mp hn
  clear h1 hn
  induction h2 with
  | nil => simp at hx
  | cons hd _ ih =>
    rcases List.mem_cons.mp hx with rfl | hx
    · rcases hd with rfl | ⟨rfl, rfl⟩
      · simp
      · simp at h0
    · simp [ih hx]

theorem parseAux_means {num : List Nat} {m : Nat} {x : AuxIn Q} {rows : Option (List (List Q))}
    (h : x.Means num rows) (hne : ∃ n ∈ num, n ≠ 0) :
    parseAux num.length m num x = .ok ⟨rows, none, none⟩ := by
  have hN : num.length ≠ 0 := by
    obtain ⟨n, hn, _⟩ := hne
    intro hc; rw [List.length_eq_zero_iff.mp hc] at hn; simp at hn
  cases x with
  | none => simp only [AuxIn.Means] at h; subst h; rfl
  | list l =>
    obtain ⟨r, rfl, hm⟩ := h
    simp only [parseAux, if_neg hN]
    exact parseAuxList_ok hm (listMatches_some hm hne)
  | padded => exact h.elim

theorem means_lens {num : List Nat} {x : AuxIn Q} {rows : Option (List (List Q))}
    (h : x.Means num rows) : ∀ r, rows = some r → r.map List.length = num := by
  intro r hr
  cases x with
  | none => simp only [AuxIn.Means] at h; rw [h] at hr; cases hr
  | list l => obtain ⟨r', h1, hm⟩ := h; rw [h1] at hr; rw [← Option.some.inj hr]; exact hm.1
  | padded => exact h.elim

theorem inv_mk_list (ops : Ops P Q F K) (pts : List (List P)) (n : AuxIn Q) (f : AuxIn F)
    (rn : Option (List (List Q))) (rf : Option (List (List F)))
    (hne : ∃ p ∈ pts, p ≠ [])
    (hn : n.Means (pts.map List.length) rn) (hf : f.Means (pts.map List.length) rf) :
    ∃ s, mk (.list pts) n f = .ok s ∧ Inv ops (Abs.ofLists ops pts rn rf) s ∧
      s.ptsPadded = none := by
  have hne' : ∃ n ∈ pts.map List.length, n ≠ 0 := by
    obtain ⟨p, hp, h0⟩ := hne
    exact ⟨p.length, List.mem_map_of_mem hp, fun hc => h0 (List.length_eq_zero_iff.mp hc)⟩
  have pn := parseAux_means (m := maxNat (pts.map List.length)) hn hne'
  have pf := parseAux_means (m := maxNat (pts.map List.length)) hf hne'
  rw [List.length_map] at pn pf
  refine ⟨_, by simp only [mk, parsePts, pn, pf, bind, Except.bind]; rfl, ?_, rfl⟩
  have aux : ∀ {X : Type} (zero : X) (r : Option (List (List X))),
      AuxInv (pts.map List.length) zero false false
        (r.map (Col.ofList (maxNat (pts.map List.length)) zero)) ⟨r, none, none⟩ := by
    intro X zero r
    cases r with
    | none => exact ⟨rfl, rfl, fun hc => by simp at hc⟩
    | some r =>
      exact ⟨coh_some _, fun hc => by simp at hc, fun _ => ⟨rfl, rfl⟩, fun hc => by simp at hc⟩
  exact {
    wf := by
      refine ⟨?_, ofList_fits rfl, ?_, ?_⟩
      · obtain ⟨p, hp, _⟩ := hne
        intro hc; rw [show pts = [] from hc] at hp; simp at hp
      · intro c hc
        obtain ⟨r, hr, rfl⟩ := Option.map_eq_some_iff.mp hc
        exact ofList_fits (means_lens hn r hr)
      · intro c hc
        obtain ⟨r, hr, rfl⟩ := Option.map_eq_some_iff.mp hc
        exact ofList_fits (means_lens hf r hr)
    hN := rfl
    hP := rfl
    hvalid := by
      obtain ⟨p, hp, h0⟩ := hne
      rw [List.any_eq_true]
      exact ⟨true, List.mem_map.mpr ⟨p, hp, by simp [List.length_pos_iff, h0]⟩, rfl⟩
    hnum := rfl
    heq := fun _ hc => hc
    hmade := rfl
    hl := coh_some _
    hp := coh_none _
    hdata := fun _ => ⟨rfl, rfl⟩
    hpk := coh_none _
    hci := coh_none _
    hcp := fun hc => by simp at hc
    hlp := fun _ => rfl
    hpp := coh_none _
    hn := aux ops.zeroN rn
    hf := aux ops.zeroF rf }

/-- Auxiliary argument in padded form. -/
def AuxIn.MeansPadded (N w : Nat) (t : Option (List (List Q))) (x : AuxIn Q) : Prop :=
  x = auxOfPadded w t ∧ ∀ u, t = some u → u.length = N ∧ ∀ r ∈ u, r.length = w

theorem inv_mk_padded (ops : Ops P Q F K) (w : Nat) (pts : List (List P)) (n : AuxIn Q) (f : AuxIn F)
    (tn : Option (List (List Q))) (tf : Option (List (List F)))
    (hne : pts ≠ []) (hw : ∀ r ∈ pts, r.length = w)
    (hn : n.MeansPadded pts.length w tn) (hf : f.MeansPadded pts.length w tf) :
    ∃ s, mk (.padded w pts) n f = .ok s ∧ Inv ops (Abs.ofPadded w pts tn tf) s := by
  have hN : pts.length ≠ 0 := fun hc => hne (List.length_eq_zero_iff.mp hc)
  have hmax : maxNat (List.replicate pts.length w) = w := maxNat_replicate _ _ hN
  have pn := parseAux_ofPadded (m := w) (List.replicate pts.length w) hN (fun d hd => (hn.2 d hd).1)
  have pf := parseAux_ofPadded (m := w) (List.replicate pts.length w) hN (fun d hd => (hf.2 d hd).1)
  obtain ⟨fp, ep⟩ := ofPadded_fits (num := List.replicate pts.length w) (t := pts) (by simp)
    (by rw [hmax]; exact hw)
  have hnum : (Abs.ofPadded w pts tn tf : Abs P Q F).num = List.replicate pts.length w := fp.lens
  have fits : ∀ {X : Type} {t : Option (List (List X))},
      (∀ u, t = some u → u.length = pts.length ∧ ∀ r ∈ u, r.length = w) →
      ∀ u, t = some u → (Col.ofPadded (List.replicate pts.length w) u).Fits
        (List.replicate pts.length w) ∧ (Col.ofPadded (List.replicate pts.length w) u).padded = u := by
    intro X t h u hu
    exact ofPadded_fits (by simp [(h u hu).1]) (by rw [hmax]; exact (h u hu).2)
  have aux : ∀ {X : Type} (zero : X) (t : Option (List (List X))),
      (∀ u, t = some u → u.length = pts.length ∧ ∀ r ∈ u, r.length = w) →
      AuxInv (List.replicate pts.length w) zero true false
        (t.map (Col.ofPadded (List.replicate pts.length w))) ⟨none, t, none⟩ := by
    intro X zero t h
    cases t with
    | none => exact ⟨rfl, rfl, fun hc => by simp at hc⟩
    | some r =>
      exact ⟨coh_none _, fun _ => by rw [(fits h r rfl).2], fun hc => by simp at hc,
        fun hc => by simp at hc⟩
  refine ⟨_, by simp only [mk, parsePts, hn.1, hf.1, pn, pf, bind, Except.bind]; rfl, ?_⟩
  exact {
    wf := by
      refine ⟨?_, by rw [hnum]; exact fp, ?_, ?_⟩
      · intro hc
        have := fp.lenData
        rw [show (Col.ofPadded (List.replicate pts.length w) pts).data = [] from hc] at this
        simp at this; exact hN this.symm
      · intro c hc
        rw [hnum]
        obtain ⟨r, hr, rfl⟩ := Option.map_eq_some_iff.mp hc
        exact (fits hn.2 r hr).1
      · intro c hc
        rw [hnum]
        obtain ⟨r, hr, rfl⟩ := Option.map_eq_some_iff.mp hc
        exact (fits hf.2 r hr).1
    hN := by
      have := fp.lenData
      simp at this; exact this.symm
    hP := by rw [Abs.maxP, hnum, hmax]
    hvalid := by
      rw [List.any_eq_true]
      exact ⟨true, by simp [hN], rfl⟩
    hnum := hnum.symm
    heq := fun hc => by simp [Abs.ofPadded] at hc
    hmade := rfl
    hl := coh_none _
    hp := fun x hx => by
      rw [← Option.some.inj hx]; exact ep.symm
    hdata := fun hc => by simp [Abs.ofPadded] at hc
    hpk := coh_none _
    hci := coh_none _
    hcp := fun hc => by simp at hc
    hlp := fun hc => by simp at hc
    hpp := coh_none _
    hn := by rw [hnum]; exact aux ops.zeroN tn hn.2
    hf := by rw [hnum]; exact aux ops.zeroF tf hf.2 }

end P3D.Clouds
