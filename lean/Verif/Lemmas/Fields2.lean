import Verif.Lemmas.Iso
import Verif.Lemmas.Cut
import Verif.Props.Name
import Verif.Spec.Packet
/-
Helper lemmas for decoding and encoding the structures of Model/Packet.lean.
-/
namespace PyNDN
open Spec

theorem fieldsOk_of_len {fs : List (Nat × Bytes)} (h : (flat fs).length < 2 ^ 64)
    (ht : ∀ p ∈ fs, p.1 < 2 ^ 64) : FieldsOk fs :=
  fun p hp => ⟨ht p hp, Nat.lt_of_le_of_lt (flat_length_ge hp) h⟩

theorem nested_At {inp off e t} {fs l} (h : At inp off e ((t, flat fs) :: l))
    (ht : ∀ p ∈ fs, p.1 < 2 ^ 64) :
    ∃ e' off', (readNestedTlvsStart t).run inp off = .ok (e', off') ∧ At inp off' e' fs ∧
      At inp e' e l := readNestedTlvsStart_At h (fieldsOk_of_len h.bound.2 ht)

theorem name_At {inp off e l} {n : Name} (hc : CanonicalName n)
    (h : At inp off e ((7, flat (nameFields n)) :: l)) :
    ∃ off' b1 b2, decodeNameFrom.run inp off = .ok ((n, b1, b2), off') ∧ At inp off' e l ∧
      off' = off + (nameTlv n).length ∧ b1 + (flat (nameFields n)).length = off' ∧
      b2 = b1 + (flat (nameFields n.dropLast)).length := decodeNameFrom_At hc h.bound.2 h

theorem optionally_absent {inp off e t l} {m : Dec α} {d : α} (h : At inp off e l)
    (hne : ∀ p ∈ l, p.1 ≠ t) : (optionally t e m d).run inp off = .ok (d, off) := by
  unfold optionally
  rw [Dec.bind_ok (peekType_absent h hne)]; rfl

theorem optionally_present {inp off e t v l} {m : Dec α} {d : α} (h : At inp off e ((t, v) :: l)) :
    (optionally t e m d).run inp off = m.run inp off := by
  unfold optionally
  rw [Dec.bind_ok (peekType_present h)]; rfl

theorem floatOfNat_id {n : Nat} (h : n ≤ 2 ^ 53) : floatOfNat n = n := by
  unfold floatOfNat; rw [if_pos h]

theorem readOptionalFloat_At {inp off e t} {x : Option Nat} {l}
    (hx : ∀ n, x = some n → n ≤ 2 ^ 53)
    (h : At inp off e (opt t (x.map Spec.nonNeg) ++ l)) (hne : ∀ p ∈ l, p.1 ≠ t) :
    ∃ off', (readOptionalNonNegativeIntegerTlvAsFloat t e).run inp off = .ok (x, off') ∧
      At inp off' e l := by
  obtain ⟨o, h1, h2⟩ := readOptionalNonNegativeIntegerTlv_At
    (fun n hn => Nat.lt_of_le_of_lt (hx n hn) (by decide)) h hne
  refine ⟨o, ?_, h2⟩
  unfold readOptionalNonNegativeIntegerTlvAsFloat
  rw [Dec.bind_ok h1, Dec.pure_run]
  cases x with
  | none => rfl
  | some n => simp [floatOfNat_id (hx n rfl)]

/-- `for p in a list of optional fields`: discharges the "no such type" side conditions. -/
theorem mem_opt {t : Nat} {x : Option Bytes} {p : Nat × Bytes} (h : p ∈ opt t x) : p.1 = t := by
  cases x with
  | none => simp [opt] at h
  | some v => simp [opt] at h; rw [h]

theorem types_opt {t : Nat} {x : Option Bytes} (ht : t < 2 ^ 64) : ∀ p ∈ opt t x, p.1 < 2 ^ 64 := by
  intro p hp; rw [mem_opt hp]; exact ht

/-- The types of a list of fields are among `ts`. -/
def TypesIn (fs : List (Nat × Bytes)) (ts : List Nat) : Prop := ∀ p ∈ fs, p.1 ∈ ts

theorem TypesIn.nil : TypesIn [] [] := by intro p hp; simp at hp
theorem TypesIn.cons {t : Nat} {v : Bytes} {fs ts} (h : TypesIn fs ts) :
    TypesIn ((t, v) :: fs) (t :: ts) := by
  intro p hp
  rcases List.mem_cons.mp hp with h' | h'
  · subst h'; simp
  · exact List.mem_cons_of_mem _ (h p h')
theorem TypesIn.opt {t : Nat} (x : Option Bytes) : TypesIn (opt t x) [t] := by
  intro p hp; rw [mem_opt hp]; simp
theorem TypesIn.append {a b ta tb} (ha : TypesIn a ta) (hb : TypesIn b tb) :
    TypesIn (a ++ b) (ta ++ tb) := by
  intro p hp
  rcases List.mem_append.mp hp with h | h
  · exact List.mem_append.mpr (Or.inl (ha p h))
  · exact List.mem_append.mpr (Or.inr (hb p h))
theorem TypesIn.ne {fs ts} (h : TypesIn fs ts) {t : Nat} (ht : t ∉ ts) : ∀ p ∈ fs, p.1 ≠ t := by
  intro p hp he; exact ht (he ▸ h p hp)
theorem TypesIn.lt {fs ts} (h : TypesIn fs ts) (ht : ∀ t ∈ ts, t < 2 ^ 64) : ∀ p ∈ fs, p.1 < 2 ^ 64 :=
  fun p hp => ht _ (h p hp)

/-! ### Encoding -/

theorem opt_flat (t : Nat) (x : Option Bytes) (out : Bytes) :
    flat (opt t x) ++ out = match x with | none => out | some v => tlv t v ++ out := by
  cases x <;> simp [opt, flat]

theorem writeOptionalNat (t : Nat) (x : Option Nat) (out : Bytes) :
    writeOptionalNonNegativeIntegerTlv t (x.map Int.ofNat) out
      = .ok (flat (opt t (x.map nonNeg)) ++ out) := by
  cases x with
  | none => rfl
  | some n =>
    have := writeNonNegativeIntegerTlv_nat t n out
    simp only [Option.map_some, writeOptionalNonNegativeIntegerTlv, Int.ofNat_eq_natCast]
    rw [if_pos (by omega), this, opt_flat]

theorem writeOptionalFloat (t : Nat) (x : Option Nat) (out : Bytes) :
    writeOptionalNonNegativeIntegerTlvFromFloat t (x.map Int.ofNat) out
      = .ok (flat (opt t (x.map nonNeg)) ++ out) := writeOptionalNat t x out

/-- Finish a nested TLV: the type and the length of what was written since `out`. -/
theorem closeTlv (t : Nat) (fs : List (Nat × Bytes)) (out : Bytes) :
    writeTypeAndLength t ((flat fs ++ out).length - out.length) (flat fs ++ out)
      = flat [(t, flat fs)] ++ out := by
  have : (flat fs ++ out).length - out.length = (flat fs).length := by simp
  rw [this, writeTypeAndLength_tlv]; simp [flat]

theorem flat_one (t : Nat) (v : Bytes) : flat [(t, v)] = tlv t v := by simp [flat]

theorem flat_app (a b : List (Nat × Bytes)) (out : Bytes) :
    flat a ++ (flat b ++ out) = flat (a ++ b) ++ out := by rw [flat_append, List.append_assoc]

theorem nameTlv_flat (n : Name) (out : Bytes) :
    encodeNameTo n out = flat [(7, flat (nameFields n))] ++ out := by
  rw [encodeNameTo_spec]; simp [flat, nameTlv]

theorem blobTlv_flat (t : Nat) (b : Option Bytes) (out : Bytes) :
    writeBlobTlv t b out = flat [(t, b.getD [])] ++ out := by
  cases b with
  | none => rw [writeBlobTlv_none]; simp [flat]
  | some v => rw [writeBlobTlv_some]; simp [flat]

theorem component_flat (c : Component) (out : Bytes) :
    encodeNameComponent c out = flat [key c] ++ out := by
  unfold encodeNameComponent
  rw [blobTlv_flat]; rfl

/-! ### Key locators -/

theorem encodeKeyLocator_spec (t : Nat) (kl : KeyLocator) (h : KeyLocatorOk kl) (out : Bytes) :
    encodeKeyLocator t kl out = .ok (flat [(t, flat (keyLocatorFields kl))] ++ out) := by
  unfold encodeKeyLocator keyLocatorFields
  rcases h with h | ⟨h, _⟩ | ⟨h, d, hd, hne⟩
  · rw [h]
    simp only [reduceCtorEq, if_false, bind, Except.bind, pure, Except.pure]
    have := closeTlv t [] out
    simp only [flat_nil, List.nil_append] at this
    rw [this]; rfl
  · rw [h]
    simp only [if_true, bind, Except.bind, pure, Except.pure, nameTlv_flat]
    rw [closeTlv]
  · rw [h, hd]
    have : 0 < d.length := List.length_pos_iff.mpr hne
    simp only [Option.some.injEq, Nat.reduceEqDiff, if_false, if_true, bind, Except.bind, pure,
      Except.pure, blobSize, this, gt_iff_lt, and_self, blobTlv_flat]
    rw [closeTlv]

theorem keyLocatorFields_types (kl : KeyLocator) : TypesIn (keyLocatorFields kl) [7, 29] := by
  unfold keyLocatorFields
  repeat' split
  · intro p hp; simp at hp; subst hp; simp
  · intro p hp; simp at hp; subst hp; simp
  · intro p hp; simp at hp

theorem decodeKeyLocator_At {inp off e t l} {kl : KeyLocator} (hk : KeyLocatorOk kl)
    (h : At inp off e ((t, flat (keyLocatorFields kl)) :: l)) :
    ∃ kl' off', (decodeKeyLocator t).run inp off = .ok (kl', off') ∧ SameKeyLocator kl kl' ∧
      At inp off' e l := by
  obtain ⟨e', o1, h1, h2, h3⟩ := nested_At h ((keyLocatorFields_types kl).lt (by simp))
  unfold decodeKeyLocator
  rw [Dec.bind_ok h1, Dec.bind_ok (getOffset_run _ _)]
  rcases hk with hk | ⟨hk, hc⟩ | ⟨hk, d, hd, hne⟩
  · have hf : keyLocatorFields kl = [] := by unfold keyLocatorFields; simp [hk]
    rw [hf] at h2
    rw [if_pos h2.nil]
    have := h2.nil
    subst this
    exact ⟨_, _, rfl, ⟨by rw [hk], by simp [hk], by simp [hk]⟩, h3⟩
  · have hf : keyLocatorFields kl = [(7, flat (nameFields kl.keyName))] := by
      unfold keyLocatorFields; simp [hk]
    rw [hf] at h2
    rw [if_neg (by have := h2.lt; omega), Dec.bind_ok (peekType_present h2), if_pos rfl]
    obtain ⟨o2, b1, b2, g1, g2, _⟩ := name_At hc h2
    rw [Dec.bind_ok g1]
    dsimp only
    rw [Dec.bind_ok (finishNestedTlvs_At g2)]
    exact ⟨_, _, rfl, ⟨by rw [hk], by simp, by simp [hk]⟩, h3⟩
  · have hf : keyLocatorFields kl = [(29, d)] := by
      unfold keyLocatorFields; simp [hk, hd]
    rw [hf] at h2
    rw [if_neg (by have := h2.lt; omega), Dec.bind_ok (peekType_absent h2 (by simp)), if_neg (by simp),
      Dec.bind_ok (peekType_present h2), if_pos rfl]
    obtain ⟨o2, g1, g2⟩ := readBlobTlv_At h2
    rw [Dec.bind_ok g1, Dec.bind_ok (finishNestedTlvs_At g2)]
    exact ⟨_, _, rfl, ⟨by rw [hk], by simp [hk], by simp [hd]⟩, h3⟩

/-! ### Meta info -/

theorem metaInfoFields_types (mi : MetaInfo) : TypesIn (metaInfoFields mi) [24, 25, 26] :=
  ((TypesIn.opt _).append (TypesIn.opt _)).append (TypesIn.opt _)

theorem encodeMetaInfo_spec (mi : MetaInfo) (h : MetaInfoOk mi) (out : Bytes) :
    encodeMetaInfo mi out = .ok (flat [(20, flat (metaInfoFields mi))] ++ out) := by
  obtain ⟨h1, _, _, _⟩ := h
  unfold encodeMetaInfo
  have hf : (if mi.finalBlockId.value.length > 0 then
      writeTypeAndLength 26 ((encodeNameComponent mi.finalBlockId out).length - out.length)
        (encodeNameComponent mi.finalBlockId out)
      else out) = flat (opt 26 (if mi.finalBlockId.value = [] then none else
        some (flat [key mi.finalBlockId]))) ++ out := by
    by_cases hv : mi.finalBlockId.value = []
    · simp [hv, opt]
    · have : mi.finalBlockId.value.length > 0 := List.length_pos_iff.mpr hv
      rw [if_pos this, if_neg hv, component_flat, closeTlv]; rfl
  simp only [hf, bind, Except.bind, writeOptionalFloat, flat_app]
  rcases h1 with h1 | ⟨h1, h2, h3⟩
  · by_cases h0 : mi.type = 0
    · have e : metaInfoFields mi = opt 25 (mi.freshnessPeriod.map nonNeg) ++
          opt 26 (if mi.finalBlockId.value = [] then none else some (flat [key mi.finalBlockId])) := by
        simp [metaInfoFields, contentTypeCode, h0, opt]
      rw [if_neg (by simp [h0]), ← e]
      simp only [pure, Except.pure]
      rw [closeTlv]
    · have e : metaInfoFields mi = [(24, nonNeg mi.type)] ++ (opt 25 (mi.freshnessPeriod.map nonNeg) ++
          opt 26 (if mi.finalBlockId.value = [] then none else some (flat [key mi.finalBlockId]))) := by
        have : mi.type ≠ 32767 := by omega
        simp [metaInfoFields, contentTypeCode, h0, this, opt]
      rw [if_pos h0, if_pos (by omega), writeNonNegativeIntegerTlv_nat, ← flat_one, flat_app, ← e]
      simp only [pure, Except.pure]
      rw [closeTlv]
  · have h0 : mi.type ≠ 0 := by omega
    obtain ⟨c, hc⟩ : ∃ c : Nat, mi.otherTypeCode = c := ⟨mi.otherTypeCode.toNat, by omega⟩
    have e : metaInfoFields mi = [(24, nonNeg c)] ++ (opt 25 (mi.freshnessPeriod.map nonNeg) ++
        opt 26 (if mi.finalBlockId.value = [] then none else some (flat [key mi.finalBlockId]))) := by
      simp [metaInfoFields, contentTypeCode, h1, hc, opt]
    rw [if_pos h0, if_neg (by omega), if_pos h1, hc, writeNonNegativeIntegerTlv_nat, ← flat_one, flat_app, ← e]
    simp only [pure, Except.pure]
    rw [closeTlv]

theorem decodeMetaInfo_At {inp off e l} {mi old : MetaInfo} (hm : MetaInfoOk mi)
    (h : At inp off e ((20, flat (metaInfoFields mi)) :: l)) :
    ∃ mi' off', (decodeMetaInfo old).run inp off = .ok (mi', off') ∧ SameMetaInfo mi mi' ∧
      At inp off' e l := by
  obtain ⟨e', o1, h1, h2, h3⟩ := nested_At h ((metaInfoFields_types mi).lt (by simp))
  obtain ⟨m1, m2, m3, m4⟩ := hm
  unfold decodeMetaInfo
  rw [Dec.bind_ok h1]
  unfold metaInfoFields at h2
  rw [List.append_assoc] at h2
  have hcode : ∀ n, contentTypeCode mi = some n → n < 2 ^ 64 := by
    intro n hn
    unfold contentTypeCode at hn
    split at hn
    · cases hn
    split at hn <;> cases hn <;> omega
  obtain ⟨o2, g1, g2⟩ := readOptionalNonNegativeIntegerTlv_At hcode h2
    (((TypesIn.opt _).append (TypesIn.opt _)).ne (by simp))
  rw [Dec.bind_ok g1]
  obtain ⟨o3, g3, g4⟩ := readOptionalFloat_At m2 g2 ((TypesIn.opt _).ne (by simp))
  rw [Dec.bind_ok g3]
  have htype : (metaInfoOfType old (contentTypeCode mi)).type = mi.type ∧
      (mi.type = 0x7fff → (metaInfoOfType old (contentTypeCode mi)).otherTypeCode = mi.otherTypeCode) := by
    unfold contentTypeCode metaInfoOfType
    rcases m1 with m1 | ⟨m1, m5, m6⟩
    · by_cases h0 : mi.type = 0
      · simp [h0]
      · rw [if_neg h0, if_neg (by omega)]
        dsimp only
        rw [if_neg h0, if_pos (by omega)]
        exact ⟨rfl, by omega⟩
    · rw [if_neg (by omega), if_pos m1]
      dsimp only
      rw [if_neg (by omega), if_neg (by omega)]
      exact ⟨m1.symm, fun _ => by simp; omega⟩
  by_cases hv : mi.finalBlockId.value = []
  · rw [if_pos hv] at g4
    rw [Dec.bind_ok (optionally_absent g4 (by simp [opt])), Dec.bind_ok (finishNestedTlvs_At g4)]
    refine ⟨_, _, rfl, ⟨htype.1.symm, fun hh => (htype.2 hh).symm, rfl, ?_⟩, h3⟩
    exact m4 hv
  · rw [if_neg hv] at g4
    have g5 : At inp o3 e' ((26, flat [key mi.finalBlockId]) :: []) := g4
    obtain ⟨e2, o4, k1, k2, k3⟩ := nested_At g5
      (by intro p hp; simp at hp; subst hp; exact canonical_code_lt m3)
    obtain ⟨o5, k4, k5⟩ := decodeNameComponent_At m3 k2
    have : decodeFinalBlockId.run inp o3 = .ok (mi.finalBlockId, e2) := by
      unfold decodeFinalBlockId
      rw [Dec.bind_ok k1, Dec.bind_ok k4, Dec.bind_ok (finishNestedTlvs_At k5)]; rfl
    rw [Dec.bind_ok ((optionally_present g5).trans this), Dec.bind_ok (finishNestedTlvs_At k3)]
    exact ⟨_, _, rfl, ⟨htype.1.symm, fun hh => (htype.2 hh).symm, rfl, rfl⟩, h3⟩

/-! ### Validity period -/

theorem encodeValidityPeriod_spec (nb na : Int) (h1 : WholeSecond nb) (h2 : WholeSecond na) :
    ∃ a b, (∀ out, encodeValidityPeriod nb na out
      = .ok (flat [(253, flat [(254, a), (255, b)])] ++ out)) ∧
      (∃ s, utf8Decode a = .ok s ∧ fromIsoString s = .ok nb) ∧
      (∃ s, utf8Decode b = .ok s ∧ fromIsoString s = .ok na) := by
  obtain ⟨s1, a1, a2, a3⟩ := iso_roundtrip nb h1
  obtain ⟨s2, b1, b2, b3⟩ := iso_roundtrip na h2
  refine ⟨asciiBytes s1, asciiBytes s2, fun out => ?_, ⟨s1, a2, a3⟩, ⟨s2, b2, b3⟩⟩
  unfold encodeValidityPeriod
  simp only [a1, b1, bind, Except.bind, pure, Except.pure, blobTlv_flat, flat_app, Option.getD_some,
    closeTlv]
  rfl

theorem decodeValidityPeriod_At {inp off e l} {nb na : Int} {a b : Bytes}
    (hw1 : WholeSecond nb) (hw2 : WholeSecond na)
    (ha : ∃ s, utf8Decode a = .ok s ∧ fromIsoString s = .ok nb)
    (hb : ∃ s, utf8Decode b = .ok s ∧ fromIsoString s = .ok na)
    (h : At inp off e ((253, flat [(254, a), (255, b)]) :: l)) :
    ∃ off', decodeValidityPeriod.run inp off = .ok (some (nb, na), off') ∧ At inp off' e l := by
  obtain ⟨s1, a1, a2⟩ := ha
  obtain ⟨s2, b1, b2⟩ := hb
  obtain ⟨e', o1, h1, h2, h3⟩ := nested_At h (by simp)
  obtain ⟨o2, g1, g2⟩ := readBlobTlv_At h2
  obtain ⟨o3, g3, g4⟩ := readBlobTlv_At g2
  have hl : ∀ {α} (x : α) (r : Except Err α) o, r = .ok x → (Dec.lift r).run inp o = .ok (x, o) := by
    intro α x r o hr; subst hr; rfl
  refine ⟨e', ?_, h3⟩
  unfold decodeValidityPeriod
  rw [Dec.bind_ok h1, Dec.bind_ok g1, Dec.bind_ok (hl _ _ _ a1), Dec.bind_ok (hl _ _ _ a2),
    Dec.bind_ok g3, Dec.bind_ok (hl _ _ _ b1), Dec.bind_ok (hl _ _ _ b2),
    Dec.bind_ok (finishNestedTlvs_At g4), Dec.pure_run]
  have e1 : setPeriod nb na = some (nb, na) := by
    obtain ⟨c, _⟩ := hw1; obtain ⟨d, _⟩ := hw2
    unfold setPeriod
    congr 2 <;> omega
  rw [e1]

/-! ### Unknown fields -/

theorem varNum_form {n : Nat} (h : n < 2 ^ 64) : VarNumForm n (varNum n) := by
  unfold VarNumForm varNum
  by_cases h1 : n ≤ 252
  · rw [if_pos h1]; exact Or.inl ⟨by omega, rfl⟩
  by_cases h2 : n < 2 ^ 16
  · rw [if_neg h1, if_pos h2]; exact Or.inr (Or.inl ⟨h2, rfl⟩)
  by_cases h3 : n < 2 ^ 32
  · rw [if_neg h1, if_neg h2, if_pos h3]; exact Or.inr (Or.inr (Or.inl ⟨h3, rfl⟩))
  · rw [if_neg h1, if_neg h2, if_neg h3]; exact Or.inr (Or.inr (Or.inr ⟨h, rfl⟩))

theorem flat_elements {P : Nat → Prop} {fs : List (Nat × Bytes)} (hk : FieldsOk fs)
    (hp : ∀ p ∈ fs, P p.1) : Elements P (flat fs) := by
  induction fs with
  | nil => exact Elements.nil
  | cons q fs ih =>
    rw [flat_cons]
    have h := hk q (by simp)
    exact Elements.cons ⟨_, _, varNum_form h.1, varNum_form h.2, rfl⟩ (hp q (by simp))
      (ih hk.tail fun p h => hp p (by simp [h]))

/-- Unknown fields are skipped at the end of a nested TLV if they may be. -/
theorem finishNestedTlvs_skip_At {inp off e fs} {b : Bool} (h : At inp off e fs)
    (hp : b = true ∨ ∀ p ∈ fs, ¬ critical p.1) :
    (finishNestedTlvs e b).run inp off = .ok ((), e) := by
  obtain ⟨⟨rest, hd⟩, hs, hk⟩ := h
  rw [hs]
  refine finishNestedTlvs_elements (flat_elements hk ?_) hd
  intro p hpm
  rcases hp with hp | hp
  · exact Or.inl hp
  · exact Or.inr (hp p hpm)

/-! ### Signature info -/

theorem nonNegTlv_flat (t n : Nat) (out : Bytes) :
    writeNonNegativeIntegerTlv t (n : Int) out = .ok (flat [(t, nonNeg n)] ++ out) := by
  rw [writeNonNegativeIntegerTlv_nat, flat_one]

theorem checkGeneric_ok {t : Nat} {rest : List (Nat × Bytes)} (ht : t < 2 ^ 64)
    (hr : ∀ p ∈ rest, p.1 < 2 ^ 64) (hl : (flat ((27, nonNeg t) :: rest)).length < 2 ^ 64) :
    ∃ r, checkGeneric.run (tlv 22 (flat ((27, nonNeg t) :: rest))) 0 = .ok r := by
  have h0 := At.start (t := 22) (rest := []) (by omega) hl
  rw [List.append_nil] at h0
  obtain ⟨e', o1, h1, h2, h3⟩ := nested_At h0 (by
    intro p hp
    rcases List.mem_cons.mp hp with hp | hp
    · subst hp; simp
    · exact hr p hp)
  obtain ⟨o2, g1, g2⟩ := readNonNegativeIntegerTlv_At ht h2
  refine ⟨((), e'), ?_⟩
  unfold checkGeneric
  rw [Dec.bind_ok h1, Dec.bind_ok g1, finishNestedTlvs_skip_At g2 (Or.inl rfl)]

/-- The RSA / ECDSA layout: type, key locator, optional validity period. -/
theorem keyLocatorAndPeriod (kl : KeyLocator) (vp : ValidityPeriod) (hk : KeyLocatorOk kl)
    (hv : ValidityOk vp) (code : Nat) :
    ∃ vf : List (Nat × Bytes), TypesIn vf [253] ∧
    (∀ out, encodeKeyLocatorAndPeriod kl vp code out
      = .ok (flat ([(27, nonNeg code)] ++ ([(28, flat (keyLocatorFields kl))] ++ vf)) ++ out)) ∧
    ∀ inp off e, At inp off e vf →
      (decodeOptionalValidity e).run inp off = .ok (vp, e) := by
  cases vp with
  | none =>
    refine ⟨[], ?_, ?_, ?_⟩
    · intro p hp; simp at hp
    · intro out
      unfold encodeKeyLocatorAndPeriod
      simp only [bind, Except.bind, encodeKeyLocator_spec _ _ hk, nonNegTlv_flat, flat_app]
      simp
    · intro inp off e h
      unfold decodeOptionalValidity
      rw [optionally_absent h (by simp), h.nil]
  | some p =>
    obtain ⟨nb, na⟩ := p
    obtain ⟨w1, w2⟩ := hv nb na rfl
    obtain ⟨a, b, h1, h2, h3⟩ := encodeValidityPeriod_spec nb na w1 w2
    refine ⟨[(253, flat [(254, a), (255, b)])], ?_, ?_, ?_⟩
    · exact TypesIn.cons TypesIn.nil
    · intro out
      unfold encodeKeyLocatorAndPeriod
      simp only [bind, Except.bind, encodeKeyLocator_spec _ _ hk, nonNegTlv_flat, flat_app, h1]
    · intro inp off e h
      obtain ⟨o, g1, g2⟩ := decodeValidityPeriod_At w1 w2 h2 h3 h
      unfold decodeOptionalValidity
      rw [optionally_present h, g1, g2.nil]

theorem closeInfo (fs : List (Nat × Bytes)) (out : Bytes) (r : Except Err Bytes)
    (h : r = .ok (flat fs ++ out)) :
    (do let o ← r; return writeTypeAndLength 22 (o.length - out.length) o : Except Err Bytes)
      = .ok (flat [(22, flat fs)] ++ out) := by
  rw [h]
  simp only [bind, Except.bind, pure, Except.pure]
  rw [closeTlv]

theorem signatureInfo_roundtrip (si : SigInfo) (h : SigInfoOk si) :
    ∃ v, (∀ out, encodeSignatureInfo si out = .ok (flat [(22, v)] ++ out)) ∧
      ∀ inp off e l, At inp off e ((22, v) :: l) →
        ∃ si' off', decodeSignatureInfo.run inp off = .ok (si', off') ∧ SameSigInfo si si' ∧
          At inp off' e l := by
  cases si with
  | rsa kl vp =>
    obtain ⟨hk, hv⟩ := h
    obtain ⟨vf, h1, h2, h3⟩ := keyLocatorAndPeriod kl vp hk hv 1
    refine ⟨flat ([(27, nonNeg 1)] ++ ([(28, flat (keyLocatorFields kl))] ++ vf)), ?_, ?_⟩
    · intro out; exact closeInfo _ _ _ (h2 out)
    · intro inp off e l hat
      obtain ⟨e', o1, g1, g2, g3⟩ := nested_At hat
        (((TypesIn.cons TypesIn.nil).append ((TypesIn.cons TypesIn.nil).append h1)).lt (by simp))
      obtain ⟨o2, g4, g5⟩ := readNonNegativeIntegerTlv_At (by omega) g2
      obtain ⟨kl', o3, g6, g7, g8⟩ := decodeKeyLocator_At hk g5
      have g9 := h3 _ _ _ g8
      unfold decodeSignatureInfo
      rw [Dec.bind_ok (getOffset_run _ _), Dec.bind_ok g1, Dec.bind_ok g4]
      have : (decodeSigFields off e' 1).run inp o2 = .ok (.rsa kl' vp, e') := by
        unfold decodeSigFields
        rw [if_pos rfl, Dec.bind_ok g6, Dec.bind_ok g9]; rfl
      rw [Dec.bind_ok this, Dec.bind_ok (finishNestedTlvs_end)]
      exact ⟨_, _, rfl, ⟨g7, rfl⟩, g3⟩
  | ecdsa kl vp =>
    obtain ⟨hk, hv⟩ := h
    obtain ⟨vf, h1, h2, h3⟩ := keyLocatorAndPeriod kl vp hk hv 3
    refine ⟨flat ([(27, nonNeg 3)] ++ ([(28, flat (keyLocatorFields kl))] ++ vf)), ?_, ?_⟩
    · intro out; exact closeInfo _ _ _ (h2 out)
    · intro inp off e l hat
      obtain ⟨e', o1, g1, g2, g3⟩ := nested_At hat
        (((TypesIn.cons TypesIn.nil).append ((TypesIn.cons TypesIn.nil).append h1)).lt (by simp))
      obtain ⟨o2, g4, g5⟩ := readNonNegativeIntegerTlv_At (by omega) g2
      obtain ⟨kl', o3, g6, g7, g8⟩ := decodeKeyLocator_At hk g5
      have g9 := h3 _ _ _ g8
      unfold decodeSignatureInfo
      rw [Dec.bind_ok (getOffset_run _ _), Dec.bind_ok g1, Dec.bind_ok g4]
      have : (decodeSigFields off e' 3).run inp o2 = .ok (.ecdsa kl' vp, e') := by
        unfold decodeSigFields
        rw [if_neg (by omega), if_pos rfl, Dec.bind_ok g6, Dec.bind_ok g9]; rfl
      rw [Dec.bind_ok this, Dec.bind_ok (finishNestedTlvs_end)]
      exact ⟨_, _, rfl, ⟨g7, rfl⟩, g3⟩
  | hmac kl =>
    have hk : KeyLocatorOk kl := h
    refine ⟨flat ([(27, nonNeg 4)] ++ [(28, flat (keyLocatorFields kl))]), ?_, ?_⟩
    · intro out
      refine closeInfo _ _ _ ?_
      simp only [bind, Except.bind, encodeKeyLocator_spec _ _ hk]
      rw [show (4 : Int) = ((4 : Nat) : Int) from rfl, nonNegTlv_flat, flat_app]
    · intro inp off e l hat
      obtain ⟨e', o1, g1, g2, g3⟩ := nested_At hat
        (((TypesIn.cons TypesIn.nil).append (TypesIn.cons TypesIn.nil)).lt (by simp))
      obtain ⟨o2, g4, g5⟩ := readNonNegativeIntegerTlv_At (by omega) g2
      obtain ⟨kl', o3, g6, g7, g8⟩ := decodeKeyLocator_At hk g5
      unfold decodeSignatureInfo
      rw [Dec.bind_ok (getOffset_run _ _), Dec.bind_ok g1, Dec.bind_ok g4]
      have : (decodeSigFields off e' 4).run inp o2 = .ok (.hmac kl', o3) := by
        unfold decodeSigFields
        rw [if_neg (by omega), if_neg (by omega), if_pos rfl, Dec.bind_ok g6]; rfl
      rw [Dec.bind_ok this, Dec.bind_ok (finishNestedTlvs_At g8)]
      exact ⟨_, _, rfl, g7, g3⟩
  | digest =>
    refine ⟨flat [(27, nonNeg 0)], ?_, ?_⟩
    · intro out
      refine closeInfo _ _ _ ?_
      rw [show (0 : Int) = ((0 : Nat) : Int) from rfl, nonNegTlv_flat]
    · intro inp off e l hat
      obtain ⟨e', o1, g1, g2, g3⟩ := nested_At hat ((TypesIn.cons TypesIn.nil).lt (by simp))
      obtain ⟨o2, g4, g5⟩ := readNonNegativeIntegerTlv_At (by omega) g2
      unfold decodeSignatureInfo
      rw [Dec.bind_ok (getOffset_run _ _), Dec.bind_ok g1, Dec.bind_ok g4]
      have : (decodeSigFields off e' 0).run inp o2 = .ok (.digest, o2) := by
        unfold decodeSigFields
        rw [if_neg (by omega), if_neg (by omega), if_neg (by omega), if_pos rfl]; rfl
      rw [Dec.bind_ok this, Dec.bind_ok (finishNestedTlvs_At g5)]
      exact ⟨_, _, rfl, trivial, g3⟩
  | generic enc code =>
    obtain ⟨t, rest, rfl, ht, n0, n1, n3, n4, hr, hl, rfl⟩ := h
    obtain ⟨r, hc⟩ := checkGeneric_ok ht hr hl
    refine ⟨flat ((27, nonNeg t) :: rest), ?_, ?_⟩
    · intro out
      unfold encodeSignatureInfo
      simp only [hc, writeBuffer, flat_one]
    · intro inp off e l hat
      obtain ⟨e', o1, g1, g2, g3⟩ := nested_At hat (by
        intro p hp
        rcases List.mem_cons.mp hp with hp | hp
        · subst hp; simp
        · exact hr p hp)
      obtain ⟨o2, g4, g5⟩ := readNonNegativeIntegerTlv_At ht g2
      have hoff : e' = off + (tlv 22 (flat ((27, nonNeg t) :: rest))).length := by
        obtain ⟨w, hd⟩ := hat.head
        have := readNestedTlvsStart_tlv hat.bound.1 hat.bound.2 hd
        rw [this] at g1; cases g1; rfl
      unfold decodeSignatureInfo
      rw [Dec.bind_ok (getOffset_run _ _), Dec.bind_ok g1, Dec.bind_ok g4]
      have hslice : (getSlice off e').run inp o2
          = .ok (tlv 22 (flat ((27, nonNeg t) :: rest)), o2) := by
        rw [getSlice_run, hoff]
        obtain ⟨w, hd⟩ := hat.head
        rw [List.drop_take, hd, Nat.add_sub_cancel_left]; simp
      have : (decodeSigFields off e' t).run inp o2
          = .ok (.generic (some (tlv 22 (flat ((27, nonNeg t) :: rest)))) (some t), e') := by
        unfold decodeSigFields
        rw [if_neg n1, if_neg n3, if_neg n4, if_neg n0, Dec.bind_ok hslice,
          Dec.bind_ok (finishNestedTlvs_skip_At g5 (Or.inl rfl))]; rfl
      rw [Dec.bind_ok this, Dec.bind_ok (finishNestedTlvs_end)]
      exact ⟨_, _, rfl, ⟨rfl, rfl⟩, g3⟩

end PyNDN
