/- Each `Pointclouds` method refines its specification (helper results for `PointcloudsProps`). -/
import Verif.PointcloudsSpec

namespace P3D.Clouds

open P3D.StructUtils
open P3D.Meshes (allSame maxNat overwritePadded Offset Index Coh coh_some coh_none
  zipWith_take_append listToPadded_max listToPacked_eq packedToList_eq reshapeLike_zipWith
  reshapeLike_lengths reshapeLike_flatten)
open P3D.Meshes.Abs (meshIdx firsts reshapeLike)

variable {P Q F K : Type}

theorem Col.Fits.lenData {num : List Nat} {c : Col Q} (h : c.Fits num) :
    c.data.length = num.length := by rw [← h.lens]; simp

theorem Col.Fits.cut {num : List Nat} {c : Col Q} (h : c.Fits num) :
    paddedToList c.padded (some num) = .ok c.data := by
  have h1 := h.lenData
  have h2 := h.lenPad
  simp only [paddedToList]
  rw [if_neg (by simp [Col.padded, h1, h2])]
  congr 1
  have := zipWith_take_append c.data c.pad (by omega)
  rwa [h.lens] at this

theorem aux_getList {num : List Nat} {zero : Q} {pm pk : Bool} {c : Option (Col Q)} {x : Aux Q}
    (hf : ∀ d, c = some d → d.Fits num) (h : AuxInv num zero pm pk c x) :
    ∃ x', x.getList num = .ok (c.map Col.data, x') ∧ AuxInv num zero pm pk c x' ∧
      x' = { x with list := c.map Col.data } := by
  cases c with
  | none =>
    obtain ⟨h1, h2, h3⟩ := h
    refine ⟨x, by simp [Aux.getList, h1, h2], ⟨h1, h2, h3⟩, ?_⟩
    show x = { x with list := none }
    rw [← h1]
  | some d =>
    have hd := hf d rfl
    obtain ⟨h1, h2, h3, h4⟩ := h
    cases hl : x.list with
    | some l =>
      have := h1 l hl
      subst this
      refine ⟨x, by simp [Aux.getList, hl], ⟨h1, h2, h3, h4⟩, ?_⟩
      show x = { x with list := some d.data }
      rw [← hl]
    | none =>
      have hpm : pm = true := by
        cases pm with
        | true => rfl
        | false => have := (h3 rfl).1; rw [hl] at this; cases this
      have hp := h2 hpm
      refine ⟨{ x with list := some d.data }, ?_, ⟨coh_some _, h2, ?_, h4⟩, rfl⟩
      · simp [Aux.getList, hl, hp, hd.cut, bind, Except.bind]
      · intro hc; rw [hpm] at hc; cases hc

theorem inv_getPtsList {ops : Ops P Q F K} {a : Abs P Q F} {s : State P Q F} (h : Inv ops a s) :
    ∃ s', getPtsList s = .ok (a.pts.data, s') ∧ Inv ops a s' ∧
      s' = { s with ptsList := some a.pts.data } := by
  cases hv : s.ptsList with
  | some l =>
    have := h.hl l hv
    subst this
    refine ⟨s, by simp [getPtsList, hv], h, ?_⟩
    rw [← hv]
  | none =>
    cases hp : s.ptsPadded with
    | none =>
      have hm := h.hmade
      rw [hp] at hm
      have := (h.hdata hm.symm).1
      simp [hv] at this
    | some p =>
      have := h.hp p hp
      subst this
      refine ⟨{ s with ptsList := some a.pts.data }, ?_, ?_, by rw [← hp]⟩
      · simp [getPtsList, hv, hp, h.hnum, h.wf.pts.cut, bind, Except.bind]
      · exact { h with
          hl := coh_some _
          hdata := fun hc => ⟨rfl, (h.hdata hc).2⟩
          hlp := fun _ => rfl }

theorem inv_getNormalsList {ops : Ops P Q F K} {a : Abs P Q F} {s : State P Q F}
    (h : Inv ops a s) :
    ∃ s', getNormalsList s = .ok (a.normals.map Col.data, s') ∧ Inv ops a s' ∧
      s' = { s with normals := { s.normals with list := a.normals.map Col.data } } := by
  obtain ⟨x, e, i, r⟩ := aux_getList h.wf.normals h.hn
  refine ⟨{ s with normals := x }, ?_, { h with hn := i }, by rw [r]⟩
  simp [getNormalsList, h.hnum, e, bind, Except.bind]

theorem inv_getFeaturesList {ops : Ops P Q F K} {a : Abs P Q F} {s : State P Q F}
    (h : Inv ops a s) :
    ∃ s', getFeaturesList s = .ok (a.features.map Col.data, s') ∧ Inv ops a s' ∧
      s' = { s with features := { s.features with list := a.features.map Col.data } } := by
  obtain ⟨x, e, i, r⟩ := aux_getList h.wf.features h.hf
  refine ⟨{ s with features := x }, ?_, { h with hf := i }, by rw [r]⟩
  simp [getFeaturesList, h.hnum, e, bind, Except.bind]

theorem notEmpty {ops : Ops P Q F K} {a : Abs P Q F} {s : State P Q F} (h : Inv ops a s) :
    isEmptyBatch s = false := by
  have h1 : s.N ≠ 0 := by
    rw [h.hN]; intro hc; exact h.wf.ne (List.length_eq_zero_iff.mp hc)
  have h2 := h.hvalid
  simp only [isEmptyBatch, Bool.or_eq_false_iff, beq_eq_false_iff_ne, ne_eq]
  refine ⟨h1, ?_⟩
  rw [List.any_eq_true] at h2
  obtain ⟨b, hb, hbt⟩ := h2
  rw [Bool.eq_false_iff]
  intro hc
  rw [List.all_eq_true] at hc
  have := hc b hb
  simp_all

theorem listToPadded_col {num : List Nat} {zero : Q} {eq : Bool} {c : Col Q}
    (hf : c.Fits num) (hne : num ≠ []) (hc : c = Col.ofList (maxNat num) zero c.data)
    (heq : eq = true → allSame num = true) :
    listToPadded c.data (some (maxNat num)) zero eq = .ok c.padded := by
  have hd : c.data ≠ [] := by
    intro h0; have := hf.lens; rw [h0] at this; exact hne this.symm
  have := listToPadded_max c.data zero eq hd (by rw [hf.lens]; exact heq)
  rw [hf.lens] at this
  rw [this, Col.padded]
  conv_rhs => rw [hc]
  rfl

theorem num_ne {a : Abs P Q F} (h : a.WF) : a.num ≠ [] := by
  simp [Abs.num, h.ne]

theorem padOpt_col {num : List Nat} {zero : Q} {eq : Bool} {c : Option (Col Q)}
    (hf : ∀ d, c = some d → d.Fits num) (hne : num ≠ [])
    (hc : ∀ d, c = some d → d = Col.ofList (maxNat num) zero d.data)
    (heq : eq = true → allSame num = true) :
    padOpt (maxNat num) eq zero (c.map Col.data) = .ok (c.map Col.padded) := by
  cases c with
  | none => rfl
  | some d =>
    simp [padOpt, listToPadded_col (hf d rfl) hne (hc d rfl) heq, Except.map]

/-- The batch after its padded view has been made. -/
def Abs.made (a : Abs P Q F) : Abs P Q F := { a with padMade := true }

theorem auxInv_made {num : List Nat} {zero : Q} {pk : Bool} {c : Option (Col Q)} {x : Aux Q}
    (h : AuxInv num zero false pk c x) :
    AuxInv num zero true pk c { x with padded := c.map Col.padded } := by
  cases c with
  | none => exact ⟨h.1, rfl, h.2.2⟩
  | some d => exact ⟨h.1, fun _ => rfl, fun hc => by simp at hc, h.2.2.2⟩

/-- Clearing the padded form is harmless before the padded view exists. -/
theorem auxInv_clear {num : List Nat} {zero : Q} {pk : Bool} {c : Option (Col Q)} {x : Aux Q}
    (h : AuxInv num zero false pk c x) :
    AuxInv num zero false pk c { x with padded := none } := by
  cases c with
  | none => exact ⟨h.1, rfl, h.2.2⟩
  | some d => exact ⟨h.1, fun hc => by simp at hc, h.2.2.1, h.2.2.2⟩

theorem inv_computePadded {ops : Ops P Q F K} {a : Abs P Q F} {s : State P Q F} (h : Inv ops a s) :
    ∃ s', computePadded ops s = .ok s' ∧ Inv ops a.made s' ∧
      s'.ptsPadded = a.padded.pts ∧ s'.normals.padded = a.padded.normals ∧
      s'.features.padded = a.padded.features := by
  cases hm : a.padMade with
  | true =>
    have hs : s.ptsPadded.isSome = true := by rw [h.hmade, hm]
    have ham : a.made = a := by cases a; simp_all [Abs.made]
    refine ⟨s, by simp [computePadded, hs], by rw [ham]; exact h, ?_, ?_, ?_⟩
    · obtain ⟨p, hp⟩ := Option.isSome_iff_exists.mp hs
      rw [hp, h.hp p hp]; rfl
    · have := h.hn
      unfold Abs.padded
      cases hc : a.normals with
      | none => rw [hc] at this; exact this.2.1
      | some d => rw [hc] at this; exact this.2.1 hm
    · have := h.hf
      unfold Abs.padded
      cases hc : a.features with
      | none => rw [hc] at this; exact this.2.1
      | some d => rw [hc] at this; exact this.2.1 hm
  | false =>
    have hs : s.ptsPadded.isSome = false := by rw [h.hmade, hm]
    have hpn : s.ptsPadded = none := by simpa using hs
    obtain ⟨hd1, hd2⟩ := h.hdata hm
    -- clear
    have i0 : Inv ops a { s with normals := { s.normals with padded := none }
                                 features := { s.features with padded := none } } :=
      { h with
        hn := by have := h.hn; rw [hm] at this ⊢; exact auxInv_clear this
        hf := by have := h.hf; rw [hm] at this ⊢; exact auxInv_clear this }
    have hne := notEmpty i0
    obtain ⟨s1, e1, i1, r1⟩ := inv_getPtsList i0
    obtain ⟨s2, e2, i2, r2⟩ := inv_getNormalsList i1
    obtain ⟨s3, e3, i3, r3⟩ := inv_getFeaturesList i2
    have hp : listToPadded a.pts.data (some s1.maxP) ops.zero s1.equisized
        = .ok a.pts.padded := by
      rw [i1.hP]
      exact listToPadded_col h.wf.pts (num_ne h.wf) hd2 (i1.heq hm)
    have hnn : ∀ d, a.normals = some d → d = Col.ofList (maxNat a.num) ops.zeroN d.data := by
      intro d hd
      have := h.hn
      rw [hd] at this
      exact (this.2.2.1 hm).2
    have hff : ∀ d, a.features = some d → d = Col.ofList (maxNat a.num) ops.zeroF d.data := by
      intro d hd
      have := h.hf
      rw [hd] at this
      exact (this.2.2.1 hm).2
    have hn : padOpt s2.maxP s2.equisized ops.zeroN (a.normals.map Col.data)
        = .ok (a.normals.map Col.padded) := by
      rw [i2.hP]
      exact padOpt_col h.wf.normals (num_ne h.wf) hnn (i2.heq hm)
    have hf : padOpt s3.maxP s3.equisized ops.zeroF (a.features.map Col.data)
        = .ok (a.features.map Col.padded) := by
      rw [i3.hP]
      exact padOpt_col h.wf.features (num_ne h.wf) hff (i3.heq hm)
    refine ⟨{ s3 with ptsPadded := some a.pts.padded
                      normals := { s3.normals with padded := a.normals.map Col.padded }
                      features := { s3.features with padded := a.features.map Col.padded } },
      ?_, ?_, rfl, rfl, rfl⟩
    · simp only [computePadded, hs, Bool.false_eq_true, if_false, hne, e1, bind, Except.bind,
        hp, e2, hn, e3, hf]
    · exact { i3 with
        wf := ⟨h.wf.ne, h.wf.pts, h.wf.normals, h.wf.features⟩
        heq := fun hc => by simp [Abs.made] at hc
        hmade := rfl
        hp := coh_some _
        hdata := fun hc => by simp [Abs.made] at hc
        hn := by have := i3.hn; rw [hm] at this; exact auxInv_made this
        hf := by have := i3.hf; rw [hm] at this; exact auxInv_made this }

theorem packOpt_col {num : List Nat} {c : Option (Col Q)}
    (hf : ∀ d, c = some d → d.Fits num) (hne : num ≠ []) :
    packOpt (c.map Col.data) = .ok (c.map (fun d => d.data.flatten)) := by
  cases c with
  | none => rfl
  | some d =>
    have hd : d.data ≠ [] := by
      intro h0; have := (hf d rfl).lens; rw [h0] at this; exact hne this.symm
    simp [packOpt, listToPacked_eq d.data hd, Except.map]

theorem auxInv_packed {num : List Nat} {zero : Q} {pm pk : Bool} {c : Option (Col Q)} {x : Aux Q}
    (h : AuxInv num zero pm pk c x) :
    AuxInv num zero pm true c { x with packed := c.map (fun d => d.data.flatten) } := by
  cases c with
  | none => exact ⟨h.1, h.2.1, fun _ => rfl⟩
  | some d => exact ⟨h.1, h.2.1, h.2.2.1, fun _ => rfl⟩

theorem inv_computePacked {ops : Ops P Q F K} {a : Abs P Q F} {s : State P Q F} (h : Inv ops a s) :
    ∃ s', computePacked s = .ok s' ∧ Inv ops a s' ∧
      s'.ptsPacked = a.packed.pts ∧ s'.normals.packed = a.packed.normals ∧
      s'.features.packed = a.packed.features ∧ s'.cloudIdx = a.packed.cloudIdx := by
  by_cases hc : (s.ptsPacked.isSome && s.cloudIdx.isSome) = true
  · refine ⟨s, by simp [computePacked, hc], h, ?_, ?_, ?_, ?_⟩
    all_goals rw [Bool.and_eq_true] at hc
    · obtain ⟨p, hp⟩ := Option.isSome_iff_exists.mp hc.1
      rw [hp, h.hpk p hp]; rfl
    · have := h.hn
      unfold Abs.packed
      cases hc' : a.normals with
      | none => rw [hc'] at this; exact this.2.2 hc.1
      | some d => rw [hc'] at this; exact this.2.2.2 hc.1
    · have := h.hf
      unfold Abs.packed
      cases hc' : a.features with
      | none => rw [hc'] at this; exact this.2.2 hc.1
      | some d => rw [hc'] at this; exact this.2.2.2 hc.1
    · obtain ⟨p, hp⟩ := Option.isSome_iff_exists.mp hc.2
      rw [hp, h.hci p hp]; rfl
  · obtain ⟨s1, e1, i1, r1⟩ := inv_getPtsList h
    obtain ⟨s2, e2, i2, r2⟩ := inv_getNormalsList i1
    obtain ⟨s3, e3, i3, r3⟩ := inv_getFeaturesList i2
    have hne := notEmpty i3
    have hp := listToPacked_eq a.pts.data h.wf.ne
    have hn := packOpt_col h.wf.normals (num_ne h.wf)
    have hf := packOpt_col h.wf.features (num_ne h.wf)
    have hpl : s3.ptsList = some a.pts.data := by rw [r3, r2, r1]
    refine ⟨{ s3 with ptsPacked := some a.pts.data.flatten
                      cloudIdx := some (meshIdx a.num, firsts a.num)
                      normals := { s3.normals with packed := a.normals.map (fun d => d.data.flatten) }
                      features := { s3.features with
                        packed := a.features.map (fun d => d.data.flatten) } },
      ?_, ?_, rfl, rfl, rfl, rfl⟩
    · simp only [computePacked, hc, Bool.false_eq_true, if_false, e1, bind, Except.bind, e2, e3, hne,
        hp, i3.hnum]
      rw [if_neg (by simp [Abs.num])]
      simp only [hn, hf]
      rfl
    · exact { i3 with
        hpk := coh_some _
        hci := coh_some _
        hcp := fun _ => rfl
        hlp := fun _ => by show s3.ptsList.isSome = true; rw [hpl]; rfl
        hn := auxInv_packed i3.hn
        hf := auxInv_packed i3.hf }

theorem inv_getPadToPacked {ops : Ops P Q F K} {a : Abs P Q F} {s : State P Q F}
    (h : Inv ops a s) :
    ∃ s', getPadToPacked s = (a.padToPacked, s') ∧ Inv ops a s' := by
  cases hp : s.padToPacked with
  | some l => exact ⟨s, by simp [getPadToPacked, hp, h.hpp l hp], h⟩
  | none =>
    refine ⟨{ s with padToPacked := some a.padToPacked }, ?_, { h with hpp := coh_some _ }⟩
    simp only [getPadToPacked, hp, h.hP, h.hnum]
    rfl

end P3D.Clouds
