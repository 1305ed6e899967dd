import Verif.Lemmas.Fields2
import Verif.Props.Decode
/-
C22: the Data wire format and the signed portion.  C43: validity periods.
-/
namespace PyNDN
open Spec

/-- The fields of a Data packet inside the outer TLV, except the signature value. -/
def signedFields (d : Data) (sigInfo : Bytes) : List (Nat × Bytes) :=
  [(7, flat (nameFields d.name)), (20, flat (metaInfoFields d.metaInfo)),
   (21, d.content.getD []), (22, sigInfo)]

theorem data_spec (d : Data) (h : DataOk d) :
    ∃ (v : Bytes), (∃ b e, encodeData d = .ok
        (tlv 6 (flat (signedFields d v ++ [(23, d.signature.signature.getD [])])), b, e) ∧
        b + (flat (signedFields d v ++ [(23, d.signature.signature.getD [])])).length =
          (tlv 6 (flat (signedFields d v ++ [(23, d.signature.signature.getD [])]))).length ∧
        e = b + (flat (signedFields d v)).length) ∧
      (∀ out, encodeSignatureInfo d.signature.info out = .ok (flat [(22, v)] ++ out)) ∧
      ∀ inp off e l, At inp off e ((22, v) :: l) →
        ∃ si' off', decodeSignatureInfo.run inp off = .ok (si', off') ∧
          SameSigInfo d.signature.info si' ∧ At inp off' e l := by
  obtain ⟨hn, hm, hs⟩ := h
  obtain ⟨v, h1, h2⟩ := signatureInfo_roundtrip d.signature.info hs
  refine ⟨v, ?_, h1, h2⟩
  have henc : encodeData d = .ok (
      let o := flat (signedFields d v ++ [(23, d.signature.signature.getD [])])
      let w := writeTypeAndLength 6 (o.length - 0) o
      (w, w.length - o.length, w.length - (flat [(23, d.signature.signature.getD [])]).length)) := by
    unfold encodeData
    have e0 : ∀ x : Bytes, writeBlobTlv 23 d.signature.signature [] = x →
        x = flat [(23, d.signature.signature.getD [])] := by
      intro x hx; rw [← hx, blobTlv_flat, List.append_nil]
    rw [e0 _ rfl]
    have e1 : ∀ fs, encodeSignatureInfo d.signature.info (flat fs) = .ok (flat ([(22, v)] ++ fs)) := by
      intro fs; rw [h1, flat_append]
    have e2 : ∀ fs, writeBlobTlv 21 d.content (flat fs) = flat ([(21, d.content.getD [])] ++ fs) := by
      intro fs; rw [blobTlv_flat, flat_append]
    have e3 : ∀ fs, encodeMetaInfo d.metaInfo (flat fs)
        = .ok (flat ([(20, flat (metaInfoFields d.metaInfo))] ++ fs)) := by
      intro fs; rw [encodeMetaInfo_spec _ hm, flat_append]
    have e4 : ∀ fs, encodeNameTo d.name (flat fs)
        = flat ([(7, flat (nameFields d.name))] ++ fs) := by
      intro fs; rw [nameTlv_flat, flat_append]
    simp only [bind, Except.bind, pure, Except.pure, e1, e2, e3, e4, signedFields]
    simp
  have hw : ∀ o : Bytes, writeTypeAndLength 6 (o.length - 0) o = tlv 6 o := by
    intro o
    have := writeTypeAndLength_tlv 6 o []
    simpa using this
  simp only [hw] at henc
  refine ⟨_, _, henc, ?_, ?_⟩
  · rw [tlv_length]; omega
  · rw [flat_append, tlv_length, List.length_append]; omega

/-- The encoder: the packet is the Data TLV around the Name, MetaInfo, Content and SignatureInfo, and
the SignatureValue.  The reported signed portion is exactly the first four. -/
theorem C22_encoding (d : Data) (h : DataOk d) :
    ∃ (wire : Bytes) (b e : Nat) (sigInfo : Bytes), encodeData d = .ok (wire, b, e) ∧
      wire = tlv 6 (flat [(7, flat (nameFields d.name)), (20, flat (metaInfoFields d.metaInfo)),
        (21, d.content.getD []), (22, sigInfo), (23, d.signature.signature.getD [])]) ∧
      slice wire b e = flat [(7, flat (nameFields d.name)), (20, flat (metaInfoFields d.metaInfo)),
        (21, d.content.getD []), (22, sigInfo)] ∧
      encodeSignatureInfo d.signature.info [] = .ok (tlv 22 sigInfo) := by
  obtain ⟨v, ⟨b, e, h1, h2, h3⟩, h4, _⟩ := data_spec d h
  refine ⟨_, b, e, v, h1, rfl, ?_, ?_⟩
  · show _ = flat (signedFields d v)
    rw [flat_append] at h2 ⊢
    generalize flat (signedFields d v) = s at *
    generalize flat [(23, d.signature.signature.getD [])] = q at *
    have ht : tlv 6 (s ++ q) = (varNum 6 ++ varNum (s ++ q).length) ++ (s ++ q) := rfl
    generalize varNum 6 ++ varNum (s ++ q).length = pre at ht
    rw [ht] at h2 ⊢
    unfold slice
    have hb : b = pre.length := by simp at h2; omega
    rw [h3, hb, ← List.length_append, ← List.append_assoc, List.take_left, List.drop_left]
  · rw [h4, List.append_nil, flat_one]

/-- Decoding the encoding gives the same packet and the same signed portion, whatever the object held
before and whatever bytes follow. -/
theorem C22_roundtrip (d old : Data) (h : DataOk d) (wire : Bytes) (b e : Nat)
    (henc : encodeData d = .ok (wire, b, e)) (hsize : wire.length < 2 ^ 64) (extra : Bytes) :
    ∃ d', decodeData old (wire ++ extra) = .ok (d', b, e) ∧ SameData d d' := by
  obtain ⟨v, ⟨b', e', h1, h2, h3⟩, _, hdec⟩ := data_spec d h
  rw [henc] at h1
  cases h1
  obtain ⟨hn, hm, hs⟩ := h
  have hlen : (flat (signedFields d v ++ [(23, d.signature.signature.getD [])])).length < 2 ^ 64 := by
    omega
  have hat := At.start (t := 6) (rest := extra) (by omega) hlen
  obtain ⟨e1, o1, g1, g2, g3⟩ := nested_At hat (by simp [signedFields])
  obtain ⟨w, hd⟩ := hat.head
  have ho1 : o1 = b := by
    rw [readNestedTlvsStart_tlv hat.bound.1 hat.bound.2 hd] at g1
    cases g1; omega
  obtain ⟨o2, n1, n2, k1, k2, _⟩ := name_At hn g2
  obtain ⟨mi', o3, k3, k4, k5⟩ := decodeMetaInfo_At (old := old.metaInfo) hm k2
  obtain ⟨o4, k6, k7⟩ := readOptionalBlobTlv_At (x := some (d.content.getD [])) (t := 21)
    (l := [(22, v), (23, d.signature.signature.getD [])]) k5 (by simp)
  obtain ⟨si', o5, k8, k9, k10⟩ := hdec _ _ _ _ k7
  obtain ⟨o6, k11, k12⟩ := readBlobTlv_At k10
  have ho5 : o5 = e := by
    have s1 := k10.stop
    have s2 := g2.stop
    rw [h3]
    rw [flat_append, List.length_append] at s2
    omega
  unfold decodeData runDec decodeDataFrom
  rw [Dec.bind_ok g1, Dec.bind_ok (getOffset_run _ _), Dec.bind_ok k1]
  dsimp only
  rw [Dec.bind_ok ((optionally_present k2).trans k3), Dec.bind_ok k6, Dec.bind_ok k8,
    Dec.bind_ok (getOffset_run _ _), Dec.bind_ok k11, Dec.bind_ok (finishNestedTlvs_At k12)]
  simp only [Dec.pure_run]
  rw [ho1, ho5]
  refine ⟨_, rfl, ?_⟩
  exact ⟨rfl, k4, rfl, k9, rfl⟩

/-- Two packets with the same encoding carry the same information. -/
theorem C22_injective (a b : Data) (ha : DataOk a) (hb : DataOk b) (wire : Bytes) (x y x' y' : Nat)
    (hea : encodeData a = .ok (wire, x, y)) (heb : encodeData b = .ok (wire, x', y'))
    (hsize : wire.length < 2 ^ 64) : ∃ c, SameData a c ∧ SameData b c := by
  obtain ⟨c, h1, h2⟩ := C22_roundtrip a {} ha wire x y hea hsize []
  obtain ⟨c', h3, h4⟩ := C22_roundtrip b {} hb wire x' y' heb hsize []
  rw [h1] at h3
  cases h3
  exact ⟨c, h2, h4⟩

/-- Two decoding actions do the same, up to a relation between their results. -/
def Dec.Rel (R : α → β → Prop) (m : Dec α) (n : Dec β) : Prop := ∀ inp off,
  match m.run inp off, n.run inp off with
  | .ok (a, o), .ok (b, o') => R a b ∧ o = o'
  | .error e, .error e' => e = e'
  | _, _ => False

theorem Dec.Rel.refl (m : Dec α) : Dec.Rel Eq m m := by
  intro inp off
  cases m.run inp off <;> simp

theorem Dec.Rel.bind {R : α → β → Prop} {S : γ → δ → Prop} {m : Dec α} {n : Dec β} {f : α → Dec γ}
    {g : β → Dec δ} (hm : Dec.Rel R m n) (hf : ∀ a b, R a b → Dec.Rel S (f a) (g b)) :
    Dec.Rel S (m >>= f) (n >>= g) := by
  intro inp off
  have h := hm inp off
  rw [Dec.bind_def, Dec.bind_def]
  cases hx : m.run inp off with
  | error e =>
    cases hy : n.run inp off with
    | error e' => simpa [hx, hy] using h
    | ok r => simp [hx, hy] at h
  | ok r =>
    cases hy : n.run inp off with
    | error e' => simp [hx, hy] at h
    | ok r' =>
      simp [hx, hy] at h
      obtain ⟨a, o⟩ := r
      obtain ⟨b, o'⟩ := r'
      obtain ⟨h1, rfl⟩ := h
      exact hf a b h1 inp _

theorem Dec.Rel.step {S : γ → δ → Prop} {m : Dec α} {f : α → Dec γ}
    {g : α → Dec δ} (hf : ∀ a, Dec.Rel S (f a) (g a)) : Dec.Rel S (m >>= f) (m >>= g) :=
  Dec.Rel.bind (Dec.Rel.refl m) (fun a b hab => by subst hab; exact hf a)

theorem Dec.Rel.pure {R : α → β → Prop} {a : α} {b : β} (h : R a b) :
    Dec.Rel R (Pure.pure a) (Pure.pure b) := by
  intro inp off
  simp [h]

theorem decodeMetaInfo_rel (a b : MetaInfo) :
    Dec.Rel SameMetaInfo (decodeMetaInfo a) (decodeMetaInfo b) := by
  unfold decodeMetaInfo
  refine Dec.Rel.step fun e => Dec.Rel.step fun t => Dec.Rel.step fun f => Dec.Rel.step fun c =>
    Dec.Rel.step fun _ => Dec.Rel.pure ?_
  unfold SameMetaInfo metaInfoOfType
  cases t with
  | none => simp
  | some t =>
    dsimp only
    by_cases h0 : t = 0
    · simp [h0]
    · by_cases h1 : t = 1 ∨ t = 2 ∨ t = 3
      · rw [if_neg h0, if_neg h0, if_pos h1, if_pos h1]
        refine ⟨rfl, fun hh => ?_, rfl, rfl⟩
        change t = 32767 at hh
        omega
      · simp [h0, h1]

theorem sameMetaInfo_refl (m : MetaInfo) : SameMetaInfo m m := ⟨rfl, fun _ => rfl, rfl, rfl⟩

theorem sameSigInfo_refl (s : SigInfo) : SameSigInfo s s := by
  cases s <;> simp [SameSigInfo, SameKeyLocator]

/-- Decoding any bytes into an object that was used before gives the same packet, the same signed
portion or the same exception as decoding into another (for example a new) object. -/
theorem C22_old_object_irrelevant (old old' : Data) (input : Bytes) :
    (∃ e, decodeData old input = .error e ∧ decodeData old' input = .error e) ∨
    ∃ d d' b e, decodeData old input = .ok (d, b, e) ∧ decodeData old' input = .ok (d', b, e) ∧
      SameData d d' := by
  have h : Dec.Rel (fun x y => SameData x.1 y.1 ∧ x.2 = y.2) (decodeDataFrom old)
      (decodeDataFrom old') := by
    unfold decodeDataFrom
    refine Dec.Rel.step fun e => Dec.Rel.step fun b => Dec.Rel.step fun n => ?_
    obtain ⟨n, n1, n2⟩ := n
    dsimp only
    refine Dec.Rel.bind (R := SameMetaInfo) ?_ fun m m' hm => Dec.Rel.step fun c =>
      Dec.Rel.step fun si => Dec.Rel.step fun e' => Dec.Rel.step fun sv => Dec.Rel.step fun _ =>
      Dec.Rel.pure ⟨⟨rfl, hm, rfl, sameSigInfo_refl _, rfl⟩, rfl⟩
    unfold optionally
    refine Dec.Rel.step fun p => ?_
    cases p
    · exact Dec.Rel.pure (sameMetaInfo_refl _)
    · exact decodeMetaInfo_rel _ _
  have h0 := h input 0
  unfold decodeData runDec
  cases hx : (decodeDataFrom old).run input 0 with
  | error e =>
    cases hy : (decodeDataFrom old').run input 0 with
    | error e' => rw [hx, hy] at h0; exact Or.inl ⟨e, rfl, by rw [← h0]⟩
    | ok r => rw [hx, hy] at h0; exact h0.elim
  | ok r =>
    cases hy : (decodeDataFrom old').run input 0 with
    | error e' => rw [hx, hy] at h0; exact h0.elim
    | ok r' =>
      rw [hx, hy] at h0
      obtain ⟨⟨d, be⟩, o⟩ := r
      obtain ⟨⟨d', be'⟩, o'⟩ := r'
      obtain ⟨⟨g1, g2⟩, _⟩ := h0
      dsimp only at g1 g2
      subst g2
      exact Or.inr ⟨d, d', be.1, be.2, rfl, rfl, g1⟩

/-- A validity period at whole seconds in the years 1000 to 9999 survives encoding and decoding. -/
theorem C43_validity_roundtrip (nb na : Int) (h1 : WholeSecond nb) (h2 : WholeSecond na)
    (extra : Bytes) : ∃ wire, encodeValidityPeriod nb na [] = .ok wire ∧
      (wire.length < 2 ^ 64 → runDec decodeValidityPeriod (wire ++ extra) = .ok (some (nb, na))) := by
  obtain ⟨a, b, e1, e2, e3⟩ := encodeValidityPeriod_spec nb na h1 h2
  refine ⟨_, e1 [], fun hl => ?_⟩
  rw [List.append_nil, flat_one] at hl ⊢
  obtain ⟨o, g1, g2⟩ := decodeValidityPeriod_At h1 h2 e2 e3
    (At.start (rest := extra) (by omega) (by rw [tlv_length] at hl; omega))
  unfold runDec
  rw [g1]

/-- Setting a period rounds inwards to whole seconds, by less than a second at each end. -/
theorem C43_setPeriod_inside (nb na : Int) : ∃ b a, setPeriod nb na = some (b, a) ∧
    nb ≤ b ∧ b < nb + 1000 ∧ b % 1000 = 0 ∧ a ≤ na ∧ na - 1000 < a ∧ a % 1000 = 0 := by
  refine ⟨_, _, rfl, ?_⟩
  omega

/-! ### The hypotheses are met -/

/-- A Data packet with a two-component name, all the meta info, content, and an RSA signature with a
key name and a validity period. -/
def exampleData : Data :=
  { name := [Component.generic [97, 98], Component.generic [99]],
    metaInfo := { type := 0x7fff, otherTypeCode := 300, freshnessPeriod := some 5000,
                  finalBlockId := Component.generic [0, 9] },
    content := some [1, 2, 3],
    signature := { info := .rsa { type := some 1, keyName := [Component.generic [107]] }
                             (some (1500000000000, 1600000000000)),
                   signature := some [4, 5] } }

/-- The example satisfies `DataOk`, with nothing trivial in it. -/
example : DataOk exampleData := by
  refine ⟨?_, ⟨?_, ?_, ?_, ?_⟩, ?_, ?_⟩
  · intro c hc; simp [exampleData] at hc; rcases hc with rfl | rfl <;> decide
  · exact Or.inr ⟨rfl, by decide, by decide⟩
  · intro f hf; cases hf; decide
  · decide
  · intro hh; exact absurd hh (by decide)
  · exact Or.inr (Or.inl ⟨rfl, by intro c hc; simp at hc; subst hc; decide⟩)
  · intro nb na hh; cases hh; exact ⟨⟨by decide, by decide, by decide⟩, ⟨by decide, by decide, by decide⟩⟩

/-- A digest-only packet and a packet with an unknown signature type are covered as well. -/
example : SigInfoOk .digest ∧ SigInfoOk (.generic (some (tlv 22 (flat [(27, nonNeg 200), (40, [1])])))
    (some 200)) := by
  refine ⟨trivial, 200, [(40, [1])], rfl, by decide, by decide, by decide, by decide, by decide, ?_,
    by decide, rfl⟩
  intro p hp; simp at hp; subst hp; decide

example : WholeSecond 1500000000000 := ⟨by decide, by decide, by decide⟩

end PyNDN
