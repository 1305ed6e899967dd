import Verif.Lemmas.Interest
import Verif.Props.Data
/-
C20: the Interest wire format v0.2.  C21: the Interest wire format v0.3.
-/
namespace PyNDN
open Spec

theorem encodeInterest_v02 (i : Interest) (h : InterestOk i) (rnd : Nat → UInt8)
    (hp : i.applicationParameters.getD [] = []) :
    ∃ b e sent link, i.link = link.map (tlv 6) ∧ NonceFor i.nonce sent ∧
      encodeInterest i rnd = .ok (tlv 5 (flat (interestV02Fields i sent link)), b, e) ∧
      slice (tlv 5 (flat (interestV02Fields i sent link))) b e = flat (nameFields i.name.dropLast) ∧
      b + (flat (interestV02Fields i sent link)).length + (flat (nameFields i.name)).length =
        (tlv 5 (flat (interestV02Fields i sent link))).length + (nameTlv i.name).length ∧
      e = b + (flat (nameFields i.name.dropLast)).length := by
  obtain ⟨sent, hs, hn⟩ := encodeNonce_spec i.nonce rnd
  obtain ⟨link, hl⟩ : ∃ link : Option Bytes, i.link = link.map (tlv 6) := by
    cases hl : i.link with
    | none => exact ⟨none, rfl⟩
    | some v => obtain ⟨w, hw⟩ := h.link v hl; exact ⟨some w, by rw [hw]; rfl⟩
  have hlink : ∀ out, writeBuffer i.link out = flat (opt 6 link) ++ out := by
    intro out
    rw [hl]
    cases link with
    | none => rfl
    | some v => simp [writeBuffer, opt, flat]
  have hsize : ¬ blobSize i.applicationParameters > 0 := by
    cases hb : i.applicationParameters with
    | none => simp [blobSize]
    | some v => rw [hb] at hp; simp at hp; simp [blobSize, hp]
  obtain ⟨b, e, h1, h2, h3, h4⟩ := encodeInterestTail_spec i.name
    (opt 9 (if selectorFields i = [] then none else some (flat (selectorFields i))) ++
      ([(10, sent)] ++ (opt 12 (i.lifetime.map nonNeg) ++ (opt 6 link ++
      (opt 32 (i.selectedDelegation.map nonNeg) ++
      opt 30 (if i.forwardingHint = [] then none else some (flat (delegationFields i.forwardingHint))))))))
  have hf : (7, flat (nameFields i.name)) ::
      (opt 9 (if selectorFields i = [] then none else some (flat (selectorFields i))) ++
      ([(10, sent)] ++ (opt 12 (i.lifetime.map nonNeg) ++ (opt 6 link ++
      (opt 32 (i.selectedDelegation.map nonNeg) ++
      opt 30 (if i.forwardingHint = [] then none else some (flat (delegationFields i.forwardingHint))))))))
      = interestV02Fields i sent link := by simp [interestV02Fields]
  rw [hf] at h1 h2 h3
  refine ⟨b, e, sent, link, hl, hs, ?_, h2, h3, h4⟩
  unfold encodeInterest
  rw [if_neg hsize]
  have e0 : ∀ fs : List (Nat × Bytes), flat fs ++ [] = flat fs := by simp
  have ef : ∀ a b : List (Nat × Bytes), flat a ++ flat b = flat (a ++ b) := fun a b => (flat_append a b).symm
  simp only [encodeForwardingHint_spec i h, bind, Except.bind, writeOptionalNat, writeOptionalFloat, hlink,
    hn, encodeSelectors_spec i h.keyLocator, e0, ef, pure, Except.pure]
  rw [h1]

/-- The encoder: the packet is the Interest TLV around the fields in the order of the packet format,
with four nonce bytes; the reported offsets delimit the name components but the last. -/
theorem C20_encoding (i : Interest) (h : InterestOk i) (rnd : Nat → UInt8)
    (hp : i.applicationParameters.getD [] = []) :
    ∃ wire b e sent link, encodeInterest i rnd = .ok (wire, b, e) ∧
      i.link = link.map (tlv 6) ∧ NonceFor i.nonce sent ∧
      wire = tlv 5 (flat (interestV02Fields i sent link)) ∧
      slice wire b e = flat (nameFields i.name.dropLast) := by
  obtain ⟨b, e, sent, link, h1, h2, h3, h4, _⟩ := encodeInterest_v02 i h rnd hp
  exact ⟨_, b, e, sent, link, h3, h1, h2, rfl, h4⟩

theorem decodeInterestV02_At {inp : Bytes} {i old : Interest} (h : InterestOk i) {sent : Bytes}
    {link : Option Bytes} {ee : Nat} (hl : i.link = link.map (tlv 6))
    (hat : At inp 0 ee [(5, flat (interestV02Fields i sent link))]) :
    ∃ i' b e o, (decodeInterestV02 old).run inp 0 = .ok ((i', b, e), o) ∧ SameSelectors i i' ∧
      i'.nonce = some sent ∧
      i'.forwardingHint = (if i.forwardingHint = [] then old.forwardingHint else i.forwardingHint) ∧
      i'.applicationParameters = none ∧
      b + (flat (interestV02Fields i sent link)).length + (flat (nameFields i.name)).length =
        (tlv 5 (flat (interestV02Fields i sent link))).length + (nameTlv i.name).length ∧
      e = b + (flat (nameFields i.name.dropLast)).length := by
  have ht : TypesIn (interestV02Fields i sent link) [7, 9, 10, 12, 6, 32, 30] :=
    (((((TypesIn.nil.cons.append (TypesIn.opt _)).append TypesIn.nil.cons).append (TypesIn.opt _)).append
      (TypesIn.opt _)).append (TypesIn.opt _)).append (TypesIn.opt _)
  obtain ⟨rest, hd⟩ := hat.head
  obtain ⟨e', o1, g1, g2, g3⟩ := nested_At hat (ht.lt (by simp))
  have g1' := g1
  rw [readNestedTlvsStart_tlv hat.bound.1 hat.bound.2 hd] at g1'
  cases g1'
  have hfs : interestV02Fields i sent link = (7, flat (nameFields i.name)) ::
      (opt 9 (if selectorFields i = [] then none else some (flat (selectorFields i))) ++
      ((10, sent) :: (opt 12 (i.lifetime.map nonNeg) ++ (opt 6 link ++
      (opt 32 (i.selectedDelegation.map nonNeg) ++
      opt 30 (if i.forwardingHint = [] then none else some (flat (delegationFields i.forwardingHint))))))))
      := by simp [interestV02Fields]
  have g2' := g2
  conv at g2' => arg 4; rw [hfs]
  obtain ⟨o2, b, e, k1, g4, q1, q2, q3⟩ := name_At h.name g2'
  obtain ⟨sel, o3, k2, hsel, g5⟩ := optional_At (m := decodeSelectors) (d := ({} : Selectors))
    (fun s => s.minSuffix = i.minSuffix ∧ s.maxSuffix = i.maxSuffix ∧
      SameKeyLocator i.keyLocator s.keyLocator ∧ s.exclude = i.exclude ∧
      s.childSelector = i.childSelector ∧ s.mustBeFresh = i.mustBeFresh) g4
    ((TypesIn.cons ((TypesIn.opt _).append ((TypesIn.opt _).append ((TypesIn.opt _).append
      (TypesIn.opt _))))).ne (by simp))
    (by
      intro hv
      have hv := ite_none_eq_none hv
      unfold selectorFields at hv
      simp only [List.append_eq_nil_iff] at hv
      obtain ⟨⟨⟨⟨⟨a1, a2⟩, a3⟩, a4⟩, a5⟩, a6⟩ := hv
      have on : ∀ {t} {x : Option Bytes}, opt t x = [] → x = none := by
        intro t x hx; cases x with
        | none => rfl
        | some v => simp [opt] at hx
      have a1 := on a1
      have a2 := on a2
      have a3 := ite_none_eq_none (on a3)
      have a4 := ite_none_eq_none (on a4)
      have a5 := on a5
      have a6 := on a6
      simp only [Option.map_eq_none_iff] at a1 a2 a5
      refine ⟨a1.symm, a2.symm, ⟨a3, by simp [a3], by simp [a3]⟩, a4.symm, a5.symm, ?_⟩
      cases hm : i.mustBeFresh with
      | false => rfl
      | true => rw [hm] at a6; simp at a6)
    (by
      intro v hv ha
      split at hv
      · cases hv
      · cases hv
        obtain ⟨kl, o, r1, r2, r3⟩ := decodeSelectors_At h ha
        exact ⟨_, o, r1, ⟨rfl, rfl, r2, rfl, rfl, rfl⟩, r3⟩)
  obtain ⟨o4, k3, g6⟩ := readBlobTlv_At g5
  obtain ⟨o5, k4, g7⟩ := readOptionalFloat_At h.lifetime g6
    (((TypesIn.opt _).append ((TypesIn.opt _).append (TypesIn.opt _))).ne (by simp))
  -- the link and selected delegation are absent when there is a forwarding hint
  have hfl : ∃ o6 o7 o8, (optionally 30 (0 + (tlv 5 (flat (interestV02Fields i sent link))).length)
        decodeForwardingHint old.forwardingHint).run inp o5
        = .ok (if i.forwardingHint = [] then old.forwardingHint else i.forwardingHint, o6) ∧
      (optionally 6 (0 + (tlv 5 (flat (interestV02Fields i sent link))).length) decodeLinkBytes none).run inp o6
        = .ok (i.link, o7) ∧
      (readOptionalNonNegativeIntegerTlv 32 (0 + (tlv 5 (flat (interestV02Fields i sent link))).length)).run inp o7
        = .ok (i.selectedDelegation, o8) ∧
      At inp o8 (0 + (tlv 5 (flat (interestV02Fields i sent link))).length) [] := by
    by_cases hv : i.forwardingHint = []
    · rw [if_pos hv] at g7
      rw [if_pos hv]
      have g8 : At inp o5 (0 + (tlv 5 (flat (interestV02Fields i sent link))).length)
          (opt 6 link ++ (opt 32 (i.selectedDelegation.map nonNeg) ++ [])) := g7
      obtain ⟨lk, o6, c1, c2, c3⟩ := optional_At (m := decodeLinkBytes) (d := none)
        (fun x => x = i.link) g8 (((TypesIn.opt _).append TypesIn.nil).ne (by simp))
        (by intro hn; rw [hl, hn]; rfl)
        (by
          intro v hv' ha
          obtain ⟨rest, hd⟩ := ha.head
          refine ⟨some (tlv 6 v), _, ?_, ?_, ha.next⟩
          · unfold decodeLinkBytes
            rw [Dec.bind_ok (getOffset_run _ _),
              Dec.bind_ok (readNestedTlvsStart_tlv ha.bound.1 ha.bound.2 hd), Dec.bind_ok (seek_run _ _ _)]
            have := getSlice_drop hd
            rw [Dec.bind_ok (a := tlv 6 v) (off' := o5 + (tlv 6 v).length)]
            · rfl
            · rw [getSlice_run] at this ⊢
              simp only [Except.ok.injEq, Prod.mk.injEq, and_true] at this ⊢
              exact this
          · rw [hl, hv']; rfl)
      subst c2
      obtain ⟨o7, c4, c5⟩ := readOptionalNonNegativeIntegerTlv_At
        (fun n hn => (h.selectedDelegation n hn).1) c3 (by simp)
      refine ⟨o5, o6, o7, ?_, c1, c4, c5⟩
      exact optionally_absent g8 (((TypesIn.opt _).append ((TypesIn.opt _).append TypesIn.nil)).ne (by simp))
    · have hlk := h.exclusive hv
      have hl0 : link = none := by
        cases link with
        | none => rfl
        | some v => rw [hlk] at hl; cases hl
      have hs : i.selectedDelegation = none := by
        cases hsd : i.selectedDelegation with
        | none => rfl
        | some n => exact absurd hlk (h.selectedDelegation n hsd).2
      rw [if_neg hv, hs, hl0] at g7
      rw [if_neg hv, hs, hlk]
      have g8 : At inp o5 (0 + (tlv 5 (flat (interestV02Fields i sent none))).length)
          ((30, flat (delegationFields i.forwardingHint)) :: []) := g7
      obtain ⟨o6, c1, c2⟩ := decodeForwardingHint_At h.forwardingHint g8
      rw [hl0]
      obtain ⟨o7, c4, c5⟩ := readOptionalNonNegativeIntegerTlv_At (x := none) (t := 32) (l := [])
        (by intro n hn; cases hn) c2 (by simp)
      exact ⟨o6, o6, o7, (optionally_present g8).trans c1, optionally_absent c2 (by simp), c4, c5⟩
  obtain ⟨o6, o7, o8, f1, f2, f3, f4⟩ := hfl
  obtain ⟨s1, s2, s3, s4, s5, s6⟩ := hsel
  unfold decodeInterestV02
  rw [Dec.bind_ok g1, Dec.bind_ok k1]
  dsimp only
  rw [Dec.bind_ok k2, Dec.bind_ok k3, Dec.bind_ok k4, Dec.bind_ok f1, Dec.bind_ok f2, Dec.bind_ok f3]
  rw [if_neg (by
    rintro ⟨a, b⟩
    cases hsd : i.selectedDelegation with
    | none => exact a hsd
    | some n => exact (h.selectedDelegation n hsd).2 b)]
  rw [Dec.bind_ok (finishNestedTlvs_At f4)]
  refine ⟨_, b, e, _, rfl, ?_, rfl, rfl, rfl, ?_, q3⟩
  · exact ⟨rfl, s1.symm, s2.symm, s3, s4.symm, s5.symm, s6.symm, rfl, rfl, rfl⟩
  · have := tlv_length 5 (flat (interestV02Fields i sent link))
    omega

theorem interest_v02_roundtrip (i old : Interest) (h : InterestOk i) (rnd : Nat → UInt8)
    (hp : i.applicationParameters.getD [] = []) (wire : Bytes) (b e : Nat)
    (henc : encodeInterest i rnd = .ok (wire, b, e)) (hsize : wire.length < 2 ^ 64) (extra : Bytes) :
    ∃ i', decodeInterest old (wire ++ extra) = .ok (i', b, e) ∧ SameSelectors i i' ∧
      (∃ sent, i'.nonce = some sent ∧ NonceFor i.nonce sent) ∧ i'.applicationParameters = none ∧
      i'.forwardingHint = (if i.forwardingHint = [] then old.forwardingHint else i.forwardingHint) := by
  obtain ⟨b', e', sent, link, h1, h2, h3, _, h5, h6⟩ := encodeInterest_v02 i h rnd hp
  rw [henc] at h3
  cases h3
  obtain ⟨i', b'', e'', o, d1, d2, d3, d4, d5, d6, d7⟩ := decodeInterestV02_At (old := old) (sent := sent) h h1
    (At.start (rest := extra) (by omega) (by rw [tlv_length] at hsize; omega))
  have hb : b'' = b := by omega
  have he : e'' = e := by omega
  subst hb he
  refine ⟨i', ?_, d2, ⟨sent, d3, h2⟩, d5, d4⟩
  unfold decodeInterest runDec
  rw [d1]

/-- Decoding the encoding gives the same name, selectors, lifetime, link, selected delegation and nonce,
and the forwarding hint when the Interest has one.  Missing from C20: when it has none, the forwarding
hint is that of the object decoded into (`C20_stale_forwardingHint`); it is right for a new object. -/
theorem C20_roundtrip_partial (i old : Interest) (h : InterestOk i) (rnd : Nat → UInt8)
    (hp : i.applicationParameters.getD [] = []) (wire : Bytes) (b e : Nat)
    (henc : encodeInterest i rnd = .ok (wire, b, e)) (hsize : wire.length < 2 ^ 64) (extra : Bytes) :
    ∃ i', decodeInterest old (wire ++ extra) = .ok (i', b, e) ∧ SameSelectors i i' ∧
      (∃ sent, i'.nonce = some sent ∧ NonceFor i.nonce sent) ∧ i'.applicationParameters = none ∧
      (i.forwardingHint ≠ [] ∨ old.forwardingHint = [] → i'.forwardingHint = i.forwardingHint) := by
  obtain ⟨i', d1, d2, d3, d4, d5⟩ := interest_v02_roundtrip i old h rnd hp wire b e henc hsize extra
  refine ⟨i', d1, d2, d3, d4, fun hc => ?_⟩
  rw [d5]
  by_cases hv : i.forwardingHint = []
  · rw [if_pos hv, hv]
    rcases hc with hc | hc
    · exact absurd hv hc
    · exact hc
  · rw [if_neg hv]

/-- The forwarding hint of the old object survives decoding a packet that has none. -/
theorem C20_stale_forwardingHint (i old : Interest) (h : InterestOk i) (rnd : Nat → UInt8)
    (hp : i.applicationParameters.getD [] = []) (wire : Bytes) (b e : Nat)
    (henc : encodeInterest i rnd = .ok (wire, b, e)) (hsize : wire.length < 2 ^ 64)
    (hfh : i.forwardingHint = []) (extra : Bytes) :
    ∃ i', decodeInterest old (wire ++ extra) = .ok (i', b, e) ∧
      i'.forwardingHint = old.forwardingHint := by
  obtain ⟨i', d1, d2, d3, d4, d5⟩ := interest_v02_roundtrip i old h rnd hp wire b e henc hsize extra
  exact ⟨i', d1, by rw [d5, if_pos hfh]⟩

/-- A selected delegation without a link is encoded, but the v0.2 decoder refuses the packet, and it is
taken for a v0.3 packet: the selected delegation is lost and CanBePrefix has become false. -/
theorem C20_selectedDelegation_without_link : ∃ i b e,
    (encodeInterest { selectedDelegation := some 1, nonce := some [1, 2, 3, 4] } (fun _ => 0)).bind
      (fun r => decodeInterest {} r.1) = .ok (i, b, e) ∧ i.selectedDelegation = none ∧
      i.canBePrefix = false := by
  refine ⟨{ nonce := some [1, 2, 3, 4], maxSuffix := some 1 }, 4, 4, ?_, rfl, ?_⟩ <;> decide +kernel

/-! ### v0.3 -/

theorem encodeInterest_v03 (i : Interest) (h : InterestOk i) (rnd : Nat → UInt8)
    (hp : i.applicationParameters.getD [] ≠ []) :
    ∃ b e sent, NonceFor i.nonce sent ∧
      encodeInterest i rnd = .ok (tlv 5 (flat (interestV03Fields i sent)), b, e) ∧
      slice (tlv 5 (flat (interestV03Fields i sent))) b e = flat (nameFields i.name.dropLast) ∧
      b + (flat (interestV03Fields i sent)).length + (flat (nameFields i.name)).length =
        (tlv 5 (flat (interestV03Fields i sent))).length + (nameTlv i.name).length ∧
      e = b + (flat (nameFields i.name.dropLast)).length := by
  obtain ⟨sent, hs, hn⟩ := encodeNonce_spec i.nonce rnd
  obtain ⟨v, hv, hne⟩ : ∃ v, i.applicationParameters = some v ∧ v ≠ [] := by
    cases hb : i.applicationParameters with
    | none => rw [hb] at hp; simp at hp
    | some v => rw [hb] at hp; exact ⟨v, rfl, by simpa using hp⟩
  have hsize : blobSize i.applicationParameters > 0 := by
    rw [hv]; exact List.length_pos_iff.mpr hne
  have hw : writeOptionalBlobTlv 36 i.applicationParameters [] = flat (opt 36 i.applicationParameters) := by
    rw [hv]
    unfold writeOptionalBlobTlv
    have : 0 < v.length := List.length_pos_iff.mpr hne
    simp [this, blobTlv_flat, opt]
  obtain ⟨b, e, h1, h2, h3, h4⟩ := encodeInterestTail_spec i.name
    (opt 33 (if i.canBePrefix then some [] else none) ++
      (opt 18 (if i.mustBeFresh then some [] else none) ++
      (opt 30 (if i.forwardingHint = [] then none else some (flat (delegationFields i.forwardingHint))) ++
      ([(10, sent)] ++ (opt 12 (i.lifetime.map nonNeg) ++ opt 36 i.applicationParameters)))))
  have hf : (7, flat (nameFields i.name)) ::
      (opt 33 (if i.canBePrefix then some [] else none) ++
      (opt 18 (if i.mustBeFresh then some [] else none) ++
      (opt 30 (if i.forwardingHint = [] then none else some (flat (delegationFields i.forwardingHint))) ++
      ([(10, sent)] ++ (opt 12 (i.lifetime.map nonNeg) ++ opt 36 i.applicationParameters)))))
      = interestV03Fields i sent := by simp [interestV03Fields]
  rw [hf] at h1 h2 h3
  refine ⟨b, e, sent, hs, ?_, h2, h3, h4⟩
  unfold encodeInterest encodeInterestV03
  rw [if_pos hsize]
  have ef : ∀ a b : List (Nat × Bytes), flat a ++ flat b = flat (a ++ b) := fun a b => (flat_append a b).symm
  simp only [hw, encodeForwardingHint_spec i h, bind, Except.bind, writeOptionalFloat, writeFlag, 
    hn, ef, pure, Except.pure]
  rw [h1]

/-- The encoder: the packet is the Interest TLV around the fields in the order of the packet format. -/
theorem C21_encoding (i : Interest) (h : InterestOk i) (rnd : Nat → UInt8)
    (hp : i.applicationParameters.getD [] ≠ []) :
    ∃ wire b e sent, encodeInterest i rnd = .ok (wire, b, e) ∧ NonceFor i.nonce sent ∧
      wire = tlv 5 (flat (interestV03Fields i sent)) ∧
      slice wire b e = flat (nameFields i.name.dropLast) := by
  obtain ⟨b, e, sent, h2, h3, h4, _⟩ := encodeInterest_v03 i h rnd hp
  exact ⟨_, b, e, sent, h3, h2, rfl, h4⟩

theorem decodeInterestV03_At {inp : Bytes} {i : Interest} (h : InterestOk i) {sent : Bytes}
    {ee : Nat} (hat : At inp 0 ee [(5, flat (interestV03Fields i sent))]) :
    ∃ i' b e o, decodeInterestV03.run inp 0 = .ok ((i', b, e), o) ∧ i'.name = i.name ∧
      i'.canBePrefix = i.canBePrefix ∧ i'.mustBeFresh = i.mustBeFresh ∧
      i'.forwardingHint = i.forwardingHint ∧ i'.nonce = some sent ∧ i'.lifetime = i.lifetime ∧
      i'.applicationParameters = i.applicationParameters ∧
      b + (flat (interestV03Fields i sent)).length + (flat (nameFields i.name)).length =
        (tlv 5 (flat (interestV03Fields i sent))).length + (nameTlv i.name).length ∧
      e = b + (flat (nameFields i.name.dropLast)).length := by
  have ht : TypesIn (interestV03Fields i sent) [7, 33, 18, 30, 10, 12, 36] :=
    (((((TypesIn.nil.cons.append (TypesIn.opt _)).append (TypesIn.opt _)).append (TypesIn.opt _)).append
      TypesIn.nil.cons).append (TypesIn.opt _)).append (TypesIn.opt _)
  obtain ⟨rest, hd⟩ := hat.head
  obtain ⟨e', o1, g1, g2, g3⟩ := nested_At hat (ht.lt (by simp))
  have g1' := g1
  rw [readNestedTlvsStart_tlv hat.bound.1 hat.bound.2 hd] at g1'
  cases g1'
  have hfs : interestV03Fields i sent = (7, flat (nameFields i.name)) ::
      (opt 33 (if i.canBePrefix then some [] else none) ++
      (opt 18 (if i.mustBeFresh then some [] else none) ++
      (opt 30 (if i.forwardingHint = [] then none else some (flat (delegationFields i.forwardingHint))) ++
      (opt 10 (some sent) ++ (opt 12 (i.lifetime.map nonNeg) ++ (opt 34 none ++
        (opt 36 i.applicationParameters ++ [])))))))
      := by simp [interestV03Fields, opt]
  have g2' := g2
  conv at g2' => arg 4; rw [hfs]
  generalize hE : 0 + (tlv 5 (flat (interestV03Fields i sent))).length = E at *
  obtain ⟨o2, b, e, k1, g4, q1, q2, q3⟩ := name_At h.name g2'
  obtain ⟨o3, k2, g5⟩ := readBooleanTlv_At g4
    (((TypesIn.opt _).append ((TypesIn.opt _).append ((TypesIn.opt _).append ((TypesIn.opt _).append
      ((TypesIn.opt _).append ((TypesIn.opt _).append TypesIn.nil)))))).ne (by simp))
  obtain ⟨o4, k3, g6⟩ := readBooleanTlv_At g5
    (((TypesIn.opt _).append ((TypesIn.opt _).append ((TypesIn.opt _).append
      ((TypesIn.opt _).append ((TypesIn.opt _).append TypesIn.nil))))).ne (by simp))
  obtain ⟨fh, o5, k4, hfh, g7⟩ := optional_At (m := decodeForwardingHint) (d := [])
    (fun x => x = i.forwardingHint) g6
    (((TypesIn.opt _).append ((TypesIn.opt _).append
      ((TypesIn.opt _).append ((TypesIn.opt _).append TypesIn.nil)))).ne (by simp))
    (by intro hv; exact (ite_none_eq_none hv).symm)
    (by
      intro v hv ha
      split at hv
      · cases hv
      · cases hv
        obtain ⟨o, r1, r2⟩ := decodeForwardingHint_At h.forwardingHint ha
        exact ⟨_, o, r1, rfl, r2⟩)
  obtain ⟨o6, k5, g8⟩ := readOptionalBlobTlv_At g7
    (((TypesIn.opt _).append ((TypesIn.opt _).append ((TypesIn.opt _).append TypesIn.nil))).ne (by simp))
  obtain ⟨o7, k6, g9⟩ := readOptionalFloat_At h.lifetime g8
    (((TypesIn.opt _).append ((TypesIn.opt _).append TypesIn.nil)).ne (by simp))
  obtain ⟨o8, k7, g10⟩ := readOptionalBlobTlv_At g9
    (((TypesIn.opt _).append TypesIn.nil).ne (by simp))
  obtain ⟨o9, k8, g11⟩ := readOptionalBlobTlv_At g10 (by simp)
  unfold decodeInterestV03
  rw [Dec.bind_ok g1, Dec.bind_ok k1]
  dsimp only
  rw [Dec.bind_ok k2, Dec.bind_ok k3, Dec.bind_ok k4, Dec.bind_ok k5, Dec.bind_ok k6, Dec.bind_ok k7,
    Dec.bind_ok k8, Dec.bind_ok (finishNestedTlvs_At g11)]
  refine ⟨_, b, e, _, rfl, rfl, ?_, rfl, hfh, rfl, rfl, rfl, ?_, q3⟩
  · unfold Interest.canBePrefix
    by_cases hm : i.maxSuffix = some 1 <;> simp [hm]
  · have := tlv_length 5 (flat (interestV03Fields i sent))
    omega

/-- After the name, a field that is neither Selectors nor Nonce makes the v0.2 decoder fail. -/
theorem decodeInterestV02_error {inp : Bytes} {old : Interest} {n : Name} (hc : CanonicalName n) {ee : Nat}
    {t : Nat} {v : Bytes} {l : List (Nat × Bytes)} (h9 : t ≠ 9) (h10 : t ≠ 10)
    (hl : ∀ p ∈ ((7, flat (nameFields n)) :: (t, v) :: l), p.1 < 2 ^ 64)
    (hat : At inp 0 ee [(5, flat ((7, flat (nameFields n)) :: (t, v) :: l))]) :
    (decodeInterestV02 old).run inp 0 = .error .value := by
  obtain ⟨e', o1, g1, g2, g3⟩ := nested_At hat hl
  obtain ⟨o2, b, e, k1, g4, q1, q2, q3⟩ := name_At hc g2
  have hpk : (optionally 9 e' decodeSelectors {}).run inp o2 = .ok ({}, o2) := by
    unfold optionally
    have hp := peekType_head (t' := 9) g4
    rw [Dec.bind_ok hp, if_neg (by simpa using h9)]; rfl
  obtain ⟨rest, hd⟩ := g4.head
  rw [tlv_append] at hd
  have hr : (readBlobTlv 10).run inp o2 = .error .value := by
    unfold readBlobTlv
    rw [Dec.bind_error (readTypeAndLength_wrong g4.bound.1 h10 hd)]
  unfold decodeInterestV02
  rw [Dec.bind_ok g1, Dec.bind_ok k1]
  dsimp only
  rw [Dec.bind_ok hpk, Dec.bind_error hr]

/-- Decoding the encoding gives the same name, CanBePrefix, MustBeFresh, nonce, lifetime, forwarding
hint and application parameters, when the packet has at least one of CanBePrefix, MustBeFresh and a
forwarding hint.  Missing from C21: the other packets are taken for v0.2 packets
(`C21_parameters_lost`). -/
theorem C21_roundtrip_partial (i old : Interest) (h : InterestOk i) (rnd : Nat → UInt8)
    (hp : i.applicationParameters.getD [] ≠ [])
    (hv3 : i.canBePrefix = true ∨ i.mustBeFresh = true ∨ i.forwardingHint ≠ []) (wire : Bytes) (b e : Nat)
    (henc : encodeInterest i rnd = .ok (wire, b, e)) (hsize : wire.length < 2 ^ 64) (extra : Bytes) :
    ∃ i', decodeInterest old (wire ++ extra) = .ok (i', b, e) ∧ i'.name = i.name ∧
      i'.canBePrefix = i.canBePrefix ∧ i'.mustBeFresh = i.mustBeFresh ∧
      i'.forwardingHint = i.forwardingHint ∧ i'.lifetime = i.lifetime ∧
      i'.applicationParameters = i.applicationParameters ∧
      (∃ sent, i'.nonce = some sent ∧ NonceFor i.nonce sent) := by
  obtain ⟨b', e', sent, h2, h3, _, h5, h6⟩ := encodeInterest_v03 i h rnd hp
  rw [henc] at h3
  cases h3
  have hat := At.start (t := 5) (v := flat (interestV03Fields i sent)) (rest := extra) (by omega)
    (by rw [tlv_length] at hsize; omega)
  obtain ⟨i', b'', e'', o, d1, d2, d3, d4, d5, d6, d7, d8, d9, d10⟩ := decodeInterestV03_At h hat
  have hb : b'' = b := by omega
  have he : e'' = e := by omega
  subst hb he
  refine ⟨i', ?_, d2, d3, d4, d5, d7, d8, sent, d6, h2⟩
  have ht : TypesIn (interestV03Fields i sent) [7, 33, 18, 30, 10, 12, 36] :=
    (((((TypesIn.nil.cons.append (TypesIn.opt _)).append (TypesIn.opt _)).append (TypesIn.opt _)).append
      TypesIn.nil.cons).append (TypesIn.opt _)).append (TypesIn.opt _)
  have herr : (decodeInterestV02 old).run (tlv 5 (flat (interestV03Fields i sent)) ++ extra) 0
      = .error .value := by
    obtain ⟨t, v, l, he, h9, h10⟩ : ∃ t v l, interestV03Fields i sent =
        (7, flat (nameFields i.name)) :: (t, v) :: l ∧ t ≠ 9 ∧ t ≠ 10 := by
      unfold interestV03Fields
      cases hc : i.canBePrefix with
      | true => exact ⟨33, [], _, by simp [opt]; rfl, by decide, by decide⟩
      | false =>
        cases hm : i.mustBeFresh with
        | true => exact ⟨18, [], _, by simp [opt]; rfl, by decide, by decide⟩
        | false =>
          have hf : i.forwardingHint ≠ [] := by rcases hv3 with hh | hh | hh <;> simp_all
          exact ⟨30, _, _, by simp [opt, hf]; exact ⟨rfl, rfl⟩, by decide, by decide⟩
    rw [he] at hat ht ⊢
    exact decodeInterestV02_error h.name h9 h10 (ht.lt (by simp)) hat
  unfold decodeInterest runDec
  rw [herr, d1]

/-- A v0.3 packet without CanBePrefix, MustBeFresh and forwarding hint is taken for a v0.2 packet:
the application parameters are lost and CanBePrefix has become true, for every such Interest. -/
theorem C21_parameters_lost (i old : Interest) (h : InterestOk i) (rnd : Nat → UInt8)
    (hp : i.applicationParameters.getD [] ≠ [])
    (hv3 : i.canBePrefix = false ∧ i.mustBeFresh = false ∧ i.forwardingHint = []) (wire : Bytes) (b e : Nat)
    (henc : encodeInterest i rnd = .ok (wire, b, e)) (hsize : wire.length < 2 ^ 64) (extra : Bytes) :
    ∃ i', decodeInterest old (wire ++ extra) = .ok (i', b, e) ∧
      i'.applicationParameters = none ∧ i'.canBePrefix = true ∧ i'.name = i.name := by
  obtain ⟨b', e', sent, h2, h3, _, h5, h6⟩ := encodeInterest_v03 i h rnd hp
  rw [henc] at h3
  cases h3
  have hat := At.start (t := 5) (v := flat (interestV03Fields i sent)) (rest := extra) (by omega)
    (by rw [tlv_length] at hsize; omega)
  obtain ⟨v1, v2, v3⟩ := hv3
  have ht : TypesIn (interestV03Fields i sent) [7, 33, 18, 30, 10, 12, 36] :=
    (((((TypesIn.nil.cons.append (TypesIn.opt _)).append (TypesIn.opt _)).append (TypesIn.opt _)).append
      TypesIn.nil.cons).append (TypesIn.opt _)).append (TypesIn.opt _)
  obtain ⟨rest, hd⟩ := hat.head
  obtain ⟨e', o1, g1, g2, g3⟩ := nested_At hat (ht.lt (by simp))
  have g1' := g1
  rw [readNestedTlvsStart_tlv hat.bound.1 hat.bound.2 hd] at g1'
  cases g1'
  have hfs : interestV03Fields i sent = (7, flat (nameFields i.name)) ::
      (10, sent) :: (opt 12 (i.lifetime.map nonNeg) ++ (opt 32 ((none : Option Nat).map nonNeg) ++
        opt 36 i.applicationParameters))
      := by simp [interestV03Fields, opt, v1, v2, v3]
  have g2' := g2
  conv at g2' => arg 4; rw [hfs]
  generalize hE : 0 + (tlv 5 (flat (interestV03Fields i sent))).length = E at *
  obtain ⟨o2, nb, ne, k1, g4, q1, q2, q3⟩ := name_At h.name g2'
  obtain ⟨o4, k3, g6⟩ := readBlobTlv_At g4
  obtain ⟨o5, k4, g7⟩ := readOptionalFloat_At h.lifetime g6
    (((TypesIn.opt _).append (TypesIn.opt _)).ne (by simp))
  obtain ⟨o6, k5, g8⟩ := readOptionalNonNegativeIntegerTlv_At (by intro n hn; cases hn) g7
    ((TypesIn.opt _).ne (by simp))
  have k6 : (finishNestedTlvs E).run (tlv 5 (flat (interestV03Fields i sent)) ++ extra) o6 = .ok ((), E) :=
    finishNestedTlvs_skip_At g8 (by
      right
      intro p hp
      rw [mem_opt hp]
      unfold critical; omega)
  have ha : ∀ t, t ≠ 32 → t ≠ 36 → ∀ {α : Type} {m : Dec α} {d : α},
      (optionally t E m d).run (tlv 5 (flat (interestV03Fields i sent)) ++ extra) o5 = .ok (d, o5) := by
    intro t h1 h2 α m d
    exact optionally_absent g7 (((TypesIn.opt _).append (TypesIn.opt _)).ne (by simp; omega))
  have h9 : (optionally 9 E decodeSelectors {}).run (tlv 5 (flat (interestV03Fields i sent)) ++ extra) o2
      = .ok ({}, o2) :=
    optionally_absent g4 ((TypesIn.cons ((TypesIn.opt _).append ((TypesIn.opt _).append
      (TypesIn.opt _)))).ne (by simp))
  have hdec : (decodeInterestV02 old).run (tlv 5 (flat (interestV03Fields i sent)) ++ extra) 0 = .ok
      (({ name := i.name, nonce := some sent, lifetime := i.lifetime,
          forwardingHint := old.forwardingHint }, nb, ne), E) := by
    unfold decodeInterestV02
    rw [Dec.bind_ok g1, Dec.bind_ok k1]
    dsimp only
    rw [Dec.bind_ok h9, Dec.bind_ok k3, Dec.bind_ok k4, Dec.bind_ok (ha 30 (by decide) (by decide)),
      Dec.bind_ok (ha 6 (by decide) (by decide)), Dec.bind_ok k5, if_neg (by simp), Dec.bind_ok k6]
    rfl
  have hb : nb = b := by
    have := tlv_length 5 (flat (interestV03Fields i sent))
    omega
  have he : ne = e := by omega
  subst hb he
  refine ⟨{ name := i.name, nonce := some sent, lifetime := i.lifetime,
            forwardingHint := old.forwardingHint }, ?_, rfl, rfl, rfl⟩
  unfold decodeInterest runDec
  rw [hdec]

/-! ### The hypotheses are met -/

/-- An Interest with all the selectors, a link and a selected delegation. -/
def exampleInterest : Interest :=
  { name := [Component.generic [97], Component.generic [98, 99]], minSuffix := some 1, maxSuffix := some 300,
    keyLocator := { type := some 2, keyData := some [1, 2] },
    exclude := [some (Component.generic [1]), none, some (Component.generic [5, 5]), none],
    childSelector := some 1, mustBeFresh := true, nonce := some [1, 2, 3, 4], lifetime := some 4000,
    link := some (tlv 6 [7, 0]), selectedDelegation := some 0 }

example : InterestOk exampleInterest where
  name := by intro c hc; simp [exampleInterest] at hc; rcases hc with rfl | rfl <;> decide
  minSuffix := by intro n hn; cases hn; decide
  maxSuffix := by intro n hn; cases hn; decide
  keyLocator := Or.inr (Or.inr ⟨rfl, [1, 2], rfl, by decide⟩)
  exclude := by
    intro c hc; simp [exampleInterest] at hc
    rcases hc with rfl | rfl <;> exact ⟨by decide, by decide⟩
  childSelector := by intro n hn; cases hn; decide
  lifetime := by intro n hn; cases hn; decide
  forwardingHint := by intro d hd; simp [exampleInterest] at hd
  link := by intro b hb; cases hb; exact ⟨_, rfl⟩
  selectedDelegation := by intro n hn; cases hn; exact ⟨by decide, by simp [exampleInterest]⟩
  exclusive := by intro hh; exact absurd rfl hh

/-- An Interest with application parameters and a forwarding hint, which is a v0.3 packet. -/
def exampleInterestV03 : Interest :=
  { name := [Component.generic [97]], maxSuffix := some 1, lifetime := some 1,
    forwardingHint := [⟨3, [Component.generic [120]]⟩, ⟨9, []⟩],
    applicationParameters := some [1, 2, 3] }

example : InterestOk exampleInterestV03 where
  name := by intro c hc; simp [exampleInterestV03] at hc; subst hc; decide
  minSuffix := by intro n hn; cases hn
  maxSuffix := by intro n hn; cases hn; decide
  keyLocator := Or.inl rfl
  exclude := by intro c hc; simp [exampleInterestV03] at hc
  childSelector := by intro n hn; cases hn
  lifetime := by intro n hn; cases hn; decide
  forwardingHint := by
    intro d hd; simp [exampleInterestV03] at hd
    rcases hd with rfl | rfl
    · exact ⟨by decide, by decide, by intro c hc; simp at hc; subst hc; decide⟩
    · exact ⟨by decide, by decide, by intro c hc; simp at hc⟩
  link := by intro b hb; cases hb
  selectedDelegation := by intro n hn; cases hn
  exclusive := by intro _; rfl

end PyNDN
