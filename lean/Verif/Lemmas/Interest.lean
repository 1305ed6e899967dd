import Verif.Lemmas.Fields2
/-
Helper lemmas for delegation sets and Interests.
-/
namespace PyNDN
open Spec

theorem loopWhile_At {inp : Bytes} {e : Nat} {σ ι : Type} (f : ι → Nat × Bytes) (step : σ → ι → σ)
    (body : σ → Dec σ) (xs : List ι)
    (hb : ∀ x ∈ xs, ∀ s off l, At inp off e (f x :: l) →
      ∃ off', (body s).run inp off = .ok (step s x, off') ∧ At inp off' e l) :
    ∀ fuel off s, At inp off e (xs.map f) → e ≤ off + fuel →
      (loopWhile e body fuel s).run inp off = .ok (xs.foldl step s, e) := by
  induction xs with
  | nil =>
    intro fuel off s h _
    have := h.nil
    subst this
    cases fuel <;>
      · unfold loopWhile
        rw [Dec.bind_ok (getOffset_run _ _), if_neg (by omega)]; rfl
  | cons x xs ih =>
    intro fuel off s h hf
    have hlt := h.lt
    obtain ⟨off', h1, h2⟩ := hb x (by simp) s off _ h
    cases fuel with
    | zero => omega
    | succ fuel =>
      unfold loopWhile
      rw [Dec.bind_ok (getOffset_run _ _), if_pos hlt, Dec.bind_ok h1]
      have hprog : off < off' := by
        have := h.stop; have := h2.stop
        simp only [List.map_cons, flat_cons, List.length_append] at *
        have : 0 < (tlv (f x).1 (f x).2).length := List.length_pos_iff.mpr (tlv_ne_nil _ _)
        omega
      exact ih (fun y hy => hb y (List.mem_cons_of_mem _ hy)) fuel off' _ h2 (by omega)

theorem whileBefore_At {inp : Bytes} {off e : Nat} {σ ι : Type} (f : ι → Nat × Bytes)
    (step : σ → ι → σ) {body : σ → Dec σ} {xs : List ι} {s : σ}
    (hb : ∀ x ∈ xs, ∀ s off l, At inp off e (f x :: l) →
      ∃ off', (body s).run inp off = .ok (step s x, off') ∧ At inp off' e l)
    (h : At inp off e (xs.map f)) :
    (whileBefore e body s).run inp off = .ok (xs.foldl step s, e) := by
  unfold whileBefore
  rw [Dec.bind_ok (getOffset_run _ _)]
  exact loopWhile_At f step body xs hb _ _ _ h (by omega)

theorem foldl_snoc {ι α : Type} (g : ι → α) (xs : List ι) : ∀ s : List α,
    xs.foldl (fun s x => s ++ [g x]) s = s ++ xs.map g := by
  induction xs with
  | nil => simp
  | cons x xs ih => intro s; simp [ih]

theorem readBooleanTlv_true {inp off e t v l} (h : At inp off e ((t, v) :: l)) :
    ∃ off', (readBooleanTlv t e).run inp off = .ok (true, off') ∧ At inp off' e l := by
  obtain ⟨rest, hd⟩ := h.head
  refine ⟨_, ?_, h.next⟩
  unfold readBooleanTlv
  rw [Dec.bind_ok (peekType_present h), if_pos rfl,
    Dec.bind_ok (readTypeAndLength_tlv h.bound.1 h.bound.2 hd), Dec.bind_ok (advance_run _ _ _)]
  simp only [tlv_value_end, Dec.pure_run]

theorem ite_none_eq_none {c : Prop} [Decidable c] {v : α} (h : (if c then none else some v) = none) : c := by
  by_cases hc : c
  · exact hc
  · rw [if_neg hc] at h; cases h

theorem optional_At {inp off e t} {x : Option Bytes} {l} {m : Dec α} {d : α} (R : α → Prop)
    (h : At inp off e (opt t x ++ l)) (hne : ∀ p ∈ l, p.1 ≠ t) (habs : x = none → R d)
    (hpres : ∀ v, x = some v → At inp off e ((t, v) :: l) →
      ∃ a off', m.run inp off = .ok (a, off') ∧ R a ∧ At inp off' e l) :
    ∃ a off', (optionally t e m d).run inp off = .ok (a, off') ∧ R a ∧ At inp off' e l := by
  cases x with
  | none => exact ⟨d, off, optionally_absent h hne, habs rfl, h⟩
  | some v =>
    obtain ⟨a, o, h1, h2, h3⟩ := hpres v rfl h
    exact ⟨a, o, (optionally_present (l := l) (v := v) h).trans h1, h2, h3⟩

/-! ### Delegation sets -/

theorem encodeDelegationSetTo_spec (ds : DelegationSet) (h : DelegationsOk ds) : ∀ out,
    encodeDelegationSetTo ds out = .ok (flat (delegationFields ds) ++ out) := by
  induction ds with
  | nil => intro out; rfl
  | cons d ds ih =>
    intro out
    obtain ⟨h1, h2, h3⟩ := h d (by simp)
    obtain ⟨p, hp⟩ : ∃ p : Nat, d.preference = p := ⟨d.preference.toNat, by omega⟩
    unfold encodeDelegationSetTo
    rw [ih (fun x hx => h x (List.mem_cons_of_mem _ hx))]
    simp only [bind, Except.bind, hp, nonNegTlv_flat, nameTlv_flat, pure, Except.pure]
    rw [flat_app]
    have := closeTlv 31 ([(30, nonNeg p)] ++ [(7, flat (nameFields d.name))])
      (flat (delegationFields ds) ++ out)
    rw [this, flat_app]
    simp [delegationFields, hp]

theorem decodeDelegation_At {inp off e l} {d : Delegation} {s : DelegationSet}
    (hd : 0 ≤ d.preference ∧ d.preference < 2 ^ 64 ∧ CanonicalName d.name)
    (h : At inp off e ((31, flat [(30, nonNeg d.preference.toNat), (7, flat (nameFields d.name))]) :: l)) :
    ∃ off', (decodeDelegation s).run inp off = .ok (s ++ [d], off') ∧ At inp off' e l := by
  obtain ⟨h1, h2, h3⟩ := hd
  obtain ⟨rest, hh⟩ := h.head
  obtain ⟨e', o1, g1, g2, g3⟩ := nested_At h (by simp)
  have g0 := readTypeAndLength_tlv h.bound.1 h.bound.2 hh
  rw [readNestedTlvsStart_tlv h.bound.1 h.bound.2 hh] at g1
  cases g1
  obtain ⟨o2, k1, k2⟩ := readNonNegativeIntegerTlv_At (by omega) g2
  obtain ⟨o3, n1, n2, k3, k4, _⟩ := name_At h3 k2
  have := k4.nil
  subst this
  refine ⟨_, ?_, g3⟩
  unfold decodeDelegation
  rw [Dec.bind_ok g0, Dec.bind_ok k1, Dec.bind_ok k3]
  simp only [Dec.pure_run]
  rw [Int.toNat_of_nonneg h1]

theorem decodeDelegationSetFrom_At {inp off e} {ds : DelegationSet} (hd : DelegationsOk ds)
    (h : At inp off e (delegationFields ds)) :
    (decodeDelegationSetFrom e).run inp off = .ok (ds, e) := by
  unfold decodeDelegationSetFrom
  have := whileBefore_At (fun d : Delegation =>
    (31, flat [(30, nonNeg d.preference.toNat), (7, flat (nameFields d.name))]))
    (fun (s : DelegationSet) d => s ++ [d]) (s := [])
    (fun d hdd s off l hl => decodeDelegation_At (s := s) (hd d hdd) hl) h
  rw [this, foldl_snoc (fun d => d)]; simp

theorem delegationFields_types (ds : DelegationSet) : ∀ p ∈ delegationFields ds, p.1 < 2 ^ 64 := by
  intro p hp
  obtain ⟨d, _, rfl⟩ := List.mem_map.mp hp
  simp

theorem decodeForwardingHint_At {inp off e l} {ds : DelegationSet} (hd : DelegationsOk ds)
    (h : At inp off e ((30, flat (delegationFields ds)) :: l)) :
    ∃ off', decodeForwardingHint.run inp off = .ok (ds, off') ∧ At inp off' e l := by
  obtain ⟨e', o1, g1, g2, g3⟩ := nested_At h (delegationFields_types ds)
  refine ⟨e', ?_, g3⟩
  unfold decodeForwardingHint
  rw [Dec.bind_ok g1, Dec.bind_ok (decodeDelegationSetFrom_At hd g2), Dec.bind_ok finishNestedTlvs_end]
  rfl

/-! ### Exclude -/

theorem encodeExcludeEntries_spec (ex : Exclude) : ∀ out,
    encodeExcludeEntries ex out = flat (excludeFields ex) ++ out := by
  induction ex with
  | nil => intro out; rfl
  | cons x ex ih =>
    intro out
    cases x with
    | none =>
      unfold encodeExcludeEntries
      rw [ih]
      have := writeTypeAndLength_tlv 19 [] (flat (excludeFields ex) ++ out)
      simp only [List.length_nil, List.nil_append] at this
      rw [this, ← flat_one, flat_app]; rfl
    | some c =>
      unfold encodeExcludeEntries
      rw [ih, component_flat, flat_app]; rfl

theorem encodeExclude_spec (ex : Exclude) (out : Bytes) :
    encodeExclude ex out = flat [(16, flat (excludeFields ex))] ++ out := by
  unfold encodeExclude
  simp only [encodeExcludeEntries_spec, closeTlv]

theorem decodeExclude_At {inp off e l} {ex : Exclude} (hx : ExcludeOk ex)
    (h : At inp off e ((16, flat (excludeFields ex)) :: l)) :
    ∃ off', decodeExclude.run inp off = .ok (ex, off') ∧ At inp off' e l := by
  obtain ⟨e', o1, g1, g2, g3⟩ := nested_At h (by
    intro p hp
    obtain ⟨x, hxm, rfl⟩ := List.mem_map.mp hp
    cases x with
    | none => decide
    | some c => exact canonical_code_lt (hx c hxm).1)
  refine ⟨e', ?_, g3⟩
  unfold decodeExclude
  have := whileBefore_At (inp := inp) (e := e') (fun x : Option Component => match x with | none => (19, []) | some c => key c)
    (fun (s : Exclude) x => s ++ [x]) (s := []) (body := decodeExcludeEntry e') (xs := ex)
    (fun x hxm s off l hl => by
      unfold decodeExcludeEntry
      cases x with
      | none =>
        obtain ⟨o, b1, b2⟩ := readBooleanTlv_true hl
        refine ⟨o, ?_, b2⟩
        rw [Dec.bind_ok (peekType_present hl), if_pos rfl, Dec.bind_ok b1]; rfl
      | some c =>
        obtain ⟨hc1, hc2⟩ := hx c hxm
        obtain ⟨o, b1, b2⟩ := decodeNameComponent_At hc1 hl
        refine ⟨o, ?_, b2⟩
        have hp := peekType_head (t' := 19) hl
        rw [Dec.bind_ok hp, if_neg (by simpa using hc2), Dec.bind_ok b1]; rfl) g2
  rw [Dec.bind_ok g1, Dec.bind_ok this, Dec.bind_ok finishNestedTlvs_end, foldl_snoc (fun d => d)]
  simp

/-! ### Selectors -/

theorem writeFlag (t : Nat) (b : Bool) (out : Bytes) :
    (if b then writeTypeAndLength t 0 out else out) = flat (opt t (if b then some [] else none)) ++ out := by
  cases b with
  | false => rfl
  | true =>
    have := writeTypeAndLength_tlv t [] out
    simp only [List.length_nil, List.nil_append] at this
    simp [this, opt, flat_one]

theorem flat_eq_nil {fs : List (Nat × Bytes)} (h : flat fs = []) : fs = [] := by
  cases fs with
  | nil => rfl
  | cons p fs => rw [flat_cons] at h; exact absurd (List.append_eq_nil_iff.mp h).1 (tlv_ne_nil _ _)

theorem encodeSelectors_spec (i : Interest) (h : KeyLocatorOk i.keyLocator) (out : Bytes) :
    encodeSelectors i out = .ok (flat (opt 9 (if selectorFields i = [] then none
      else some (flat (selectorFields i)))) ++ out) := by
  unfold encodeSelectors
  have hx : ∀ out, (if i.exclude.length > 0 then encodeExclude i.exclude out else out)
      = flat (opt 16 (if i.exclude = [] then none else some (flat (excludeFields i.exclude)))) ++ out := by
    intro out
    by_cases hv : i.exclude = []
    · simp [hv, opt]
    · rw [if_pos (List.length_pos_iff.mpr hv), if_neg hv, encodeExclude_spec]; rfl
  have e : opt 13 (i.minSuffix.map nonNeg) ++ (opt 14 (i.maxSuffix.map nonNeg) ++
      (opt 15 (if i.keyLocator.type = none then none else some (flat (keyLocatorFields i.keyLocator))) ++
      (opt 16 (if i.exclude = [] then none else some (flat (excludeFields i.exclude))) ++
      (opt 17 (i.childSelector.map nonNeg) ++ opt 18 (if i.mustBeFresh then some [] else none)))))
      = selectorFields i := by simp [selectorFields]
  have hfin : ∀ o, o = flat (selectorFields i) ++ out →
      (if o.length ≠ out.length then (.ok (writeTypeAndLength 9 (o.length - out.length) o) : Except Err Bytes)
        else .ok o) = .ok (flat (opt 9 (if selectorFields i = [] then none
      else some (flat (selectorFields i)))) ++ out) := by
    intro o ho
    subst ho
    by_cases hs : selectorFields i = []
    · simp [hs, opt]
    · rw [if_pos, if_neg hs, closeTlv]
      · rfl
      · intro hl
        have : (flat (selectorFields i)).length = 0 := by
          rw [List.length_append] at hl; omega
        exact hs (flat_eq_nil (List.length_eq_zero_iff.mp this))
  by_cases hv : i.keyLocator.type = none
  · simp only [hv, ne_eq, not_true, if_false, writeFlag, writeOptionalNat, bind, Except.bind, hx, flat_app,
      pure, Except.pure]
    refine hfin _ ?_
    rw [← e]; simp [hv, opt]
  · simp only [hv, ne_eq, not_false_iff, if_true, writeFlag, writeOptionalNat, bind, Except.bind, hx,
      encodeKeyLocator_spec _ _ h, flat_app, pure, Except.pure]
    refine hfin _ ?_
    rw [← e]; simp [hv, opt]

theorem decodeSelectors_At {inp off e l} {i : Interest} (h : InterestOk i)
    (hat : At inp off e ((9, flat (selectorFields i)) :: l)) :
    ∃ kl off', decodeSelectors.run inp off = .ok (⟨i.minSuffix, i.maxSuffix, kl, i.exclude,
      i.childSelector, i.mustBeFresh⟩, off') ∧ SameKeyLocator i.keyLocator kl ∧ At inp off' e l := by
  have ht : TypesIn (selectorFields i) [13, 14, 15, 16, 17, 18] :=
    (((((TypesIn.opt _).append (TypesIn.opt _)).append (TypesIn.opt _)).append
      (TypesIn.opt _)).append (TypesIn.opt _)).append (TypesIn.opt _)
  obtain ⟨e', o1, g1, g2, g3⟩ := nested_At hat (ht.lt (by simp))
  unfold selectorFields at g2
  simp only [List.append_assoc] at g2
  obtain ⟨o2, k1, g2⟩ := readOptionalNonNegativeIntegerTlv_At h.minSuffix g2
    (((TypesIn.opt _).append ((TypesIn.opt _).append ((TypesIn.opt _).append ((TypesIn.opt _).append
      (TypesIn.opt _))))).ne (by simp))
  obtain ⟨o3, k2, g2⟩ := readOptionalNonNegativeIntegerTlv_At h.maxSuffix g2
    (((TypesIn.opt _).append ((TypesIn.opt _).append ((TypesIn.opt _).append (TypesIn.opt _)))).ne
      (by simp))
  obtain ⟨kl, o4, k3, hkl, g2⟩ := optional_At (m := decodeKeyLocator 15) (d := {})
    (SameKeyLocator i.keyLocator) g2 (((TypesIn.opt _).append ((TypesIn.opt _).append (TypesIn.opt _))).ne
      (by simp))
    (by
      intro hv
      have hv := ite_none_eq_none hv
      exact ⟨hv, by simp [hv], by simp [hv]⟩)
    (by
      intro v hv ha
      split at hv
      · cases hv
      · cases hv; exact decodeKeyLocator_At h.keyLocator ha)
  obtain ⟨ex, o5, k4, hex, g2⟩ := optional_At (m := decodeExclude) (d := [])
    (fun ex => ex = i.exclude) g2 (((TypesIn.opt _).append (TypesIn.opt _)).ne (by simp))
    (by
      intro hv
      exact (ite_none_eq_none hv).symm)
    (by
      intro v hv ha
      split at hv
      · cases hv
      · cases hv
        obtain ⟨o, b1, b2⟩ := decodeExclude_At h.exclude ha
        exact ⟨_, o, b1, rfl, b2⟩)
  subst hex
  obtain ⟨o6, k5, g2⟩ := readOptionalNonNegativeIntegerTlv_At h.childSelector g2
    ((TypesIn.opt _).ne (by simp))
  obtain ⟨o7, k6, g2⟩ := readBooleanTlv_At (t := 18) (b := i.mustBeFresh) (l := [])
    (by rw [List.append_nil]; exact g2) (by simp)
  refine ⟨kl, e', ?_, hkl, g3⟩
  unfold decodeSelectors
  rw [Dec.bind_ok g1, Dec.bind_ok k1, Dec.bind_ok k2, Dec.bind_ok k3, Dec.bind_ok k4, Dec.bind_ok k5,
    Dec.bind_ok k6, Dec.bind_ok (finishNestedTlvs_At g2)]
  rfl

/-! ### Interests -/

theorem encodeNonce_spec (own : Option Bytes) (rnd : Nat → UInt8) :
    ∃ sent, NonceFor own sent ∧ ∀ out, encodeNonce own rnd out = flat [(10, sent)] ++ out := by
  unfold encodeNonce
  by_cases h0 : blobSize own = 0
  · refine ⟨[rnd 0, rnd 1, rnd 2, rnd 3], ⟨rfl, ?_⟩, fun out => ?_⟩
    · cases own with
      | none => simp
      | some v => simp [blobSize] at h0; subst h0; simp
    · simp only [h0, if_true, blobTlv_flat, Option.getD_some]
  by_cases h1 : (own.getD []).length < 4
  · refine ⟨own.getD [] ++ ((List.range 4).drop (own.getD []).length).map rnd, ⟨?_, ?_⟩, fun out => ?_⟩
    · simp; omega
    · rw [List.take_of_length_le (by omega)]; exact List.prefix_append _ _
    · simp only [h0, h1, if_true, if_false, blobTlv_flat, Option.getD_some]
  by_cases h2 : (own.getD []).length = 4
  · refine ⟨own.getD [], ⟨h2, ?_⟩, fun out => ?_⟩
    · exact List.take_prefix _ _
    · simp only [h0, h1, h2, if_true, if_false, blobTlv_flat, Option.getD_some]
      simp
  · refine ⟨(own.getD []).take 4, ⟨by simp; omega, List.prefix_rfl⟩, fun out => ?_⟩
    simp only [h0, h1, h2, if_false, blobTlv_flat, Option.getD_some]

theorem encodeForwardingHint_spec (i : Interest) (h : InterestOk i) (out : Bytes) :
    encodeForwardingHint i out = .ok (flat (opt 30 (if i.forwardingHint = [] then none
      else some (flat (delegationFields i.forwardingHint)))) ++ out) := by
  unfold encodeForwardingHint
  by_cases hv : i.forwardingHint = []
  · simp [hv, opt]
  · have hl := h.exclusive hv
    have hs : i.selectedDelegation = none := by
      cases hsd : i.selectedDelegation with
      | none => rfl
      | some n => exact absurd hl (h.selectedDelegation n hsd).2
    rw [if_pos (List.length_pos_iff.mpr hv), if_neg (by simp [hs]), if_neg (by simp [hl]), if_neg hv]
    simp only [bind, Except.bind, pure, Except.pure, encodeDelegationSetTo_spec _ h.forwardingHint, closeTlv]
    rfl

theorem slice_mid (a b c : Bytes) : slice (a ++ (b ++ c)) a.length (a.length + b.length) = b := by
  unfold slice
  rw [← List.length_append, ← List.append_assoc, List.take_left, List.drop_left]

theorem encodeInterestTail_spec (name : Name) (fs : List (Nat × Bytes)) :
    ∃ b e, encodeInterestTail name (flat fs) = (tlv 5 (flat ((7, flat (nameFields name)) :: fs)), b, e) ∧
      slice (tlv 5 (flat ((7, flat (nameFields name)) :: fs))) b e = flat (nameFields name.dropLast) ∧
      b + (flat ((7, flat (nameFields name)) :: fs)).length + (flat (nameFields name)).length =
        (tlv 5 (flat ((7, flat (nameFields name)) :: fs))).length + (nameTlv name).length ∧
      e = b + (flat (nameFields name.dropLast)).length := by
  unfold encodeInterestTail
  simp only [encodeNameOffsets_eq, nameTlv_flat]
  have hf : flat [(7, flat (nameFields name))] ++ flat fs = flat ((7, flat (nameFields name)) :: fs) := by
    rw [← flat_append]; rfl
  rw [hf]
  have hw : writeTypeAndLength 5 (flat ((7, flat (nameFields name)) :: fs)).length
      (flat ((7, flat (nameFields name)) :: fs)) = tlv 5 (flat ((7, flat (nameFields name)) :: fs)) := by
    have := writeTypeAndLength_tlv 5 (flat ((7, flat (nameFields name)) :: fs)) []
    simpa using this
  rw [hw]
  have hc : flat ((7, flat (nameFields name)) :: fs) = nameTlv name ++ flat fs := by
    rw [flat_cons]; rfl
  have hsplit : flat (nameFields name) = flat (nameFields name.dropLast) ++
      flat (nameFields (name.drop (name.length - 1))) := by
    rw [← flat_append]
    unfold nameFields
    rw [← List.map_append, List.dropLast_eq_take, List.take_append_drop]
  obtain ⟨hdr, hh⟩ : ∃ hdr, nameTlv name = hdr ++ flat (nameFields name) := ⟨_, rfl⟩
  obtain ⟨pre, hp⟩ : ∃ pre, tlv 5 (flat ((7, flat (nameFields name)) :: fs)) =
    pre ++ flat ((7, flat (nameFields name)) :: fs) := ⟨_, rfl⟩
  have hl : (flat (nameFields name.dropLast)).length ≤ (flat (nameFields name)).length := by
    rw [hsplit, List.length_append]; omega
  refine ⟨_, _, rfl, ?_, ?_, ?_⟩
  · rw [hp, hc]
    have e1 : (pre ++ (nameTlv name ++ flat fs)).length - ((nameTlv name ++ flat fs).length -
        ((nameTlv name).length - (flat (nameFields name)).length)) = (pre ++ hdr).length := by
      rw [hh]; simp only [List.length_append]; omega
    have e2 : (pre ++ (nameTlv name ++ flat fs)).length - ((nameTlv name ++ flat fs).length -
        ((nameTlv name).length - (flat (nameFields name)).length +
          (flat (nameFields name.dropLast)).length)) =
        (pre ++ hdr).length + (flat (nameFields name.dropLast)).length := by
      rw [hh]; simp only [List.length_append]; omega
    rw [e1, e2, hh, hsplit]
    have e3 : pre ++ (hdr ++ (flat (nameFields name.dropLast) ++
        flat (nameFields (name.drop (name.length - 1)))) ++ flat fs)
        = (pre ++ hdr) ++ (flat (nameFields name.dropLast) ++
        (flat (nameFields (name.drop (name.length - 1))) ++ flat fs)) := by simp
    rw [e3, slice_mid]
  · rw [hp, hc, hh]; simp only [List.length_append]; omega
  · rw [hp, hc, hh]; simp only [List.length_append]; omega

end PyNDN
