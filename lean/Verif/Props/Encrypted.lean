import Verif.Spec.Encrypted
import Verif.Props.Data
import Verif.Props.Decode
import Verif.Lemmas.Interest
/-
C67: encrypted content and safe bags survive being encoded.
-/
namespace PyNDN
namespace Encrypt
open Spec (flat opt tlv nonNeg nameFields CanonicalName KeyLocatorOk SameKeyLocator DataOk SameData Documented IgnoresSuffix keyLocatorFields)
open Spec.Encrypt

theorem optional_flat (t : Nat) (x : Option Bytes) (out : Bytes) : writeOptionalBlobTlv t x out = flat (opt t (written x)) ++ out := by
  cases x with
  | none => rfl
  | some b =>
    cases b with
    | nil => rfl
    | cons a b =>
      have e : writeOptionalBlobTlv t (some (a :: b)) out = writeBlobTlv t (some (a :: b)) out := by
        unfold writeOptionalBlobTlv
        simp
      rw [e, blobTlv_flat]
      simp [written, opt]

/-! ### Version 2 -/

/-- The encoding of version 2 is exactly the TLV of the specification. -/
theorem C67_encoding_v2 (c : EncryptedContent) : encodeEncryptedContentV2 c = tlv 130 (flat (fieldsV2 c)) := by
  have hn : (if c.keyLocator.type = some 1 then encodeNameTo c.keyLocator.keyName ([] : Bytes) else []) =
      flat (opt 7 (if c.keyLocator.type = some 1 then some (flat (nameFields c.keyLocator.keyName)) else none)) ++ [] := by
    by_cases h : c.keyLocator.type = some 1
    · rw [if_pos h, if_pos h, nameTlv_flat]; rfl
    · rw [if_neg h, if_neg h]; rfl
  unfold encodeEncryptedContentV2
  simp only [hn, optional_flat, blobTlv_flat, flat_app]
  have := closeTlv 130 (fieldsV2 c) []
  simp only [List.append_nil, List.length_nil, Nat.sub_zero, flat_one, ] at this
  rw [← this]
  simp [fieldsV2]

theorem fieldsV2_types (c : EncryptedContent) : TypesIn (fieldsV2 c) [132, 133, 134, 7] :=
  ((TypesIn.nil.cons.append (TypesIn.opt _)).append (TypesIn.opt _)).append (TypesIn.opt _)

/-- What was encoded as version 2 is decoded to the same payload, initial vector, payload key and key name, whatever follows. -/
theorem C67_roundtrip_v2 (c : EncryptedContent) (hname : c.keyLocator.type = some 1 → CanonicalName c.keyLocator.keyName)
    (hsize : (encodeEncryptedContentV2 c).length < 2 ^ 64) (extra : Bytes) :
    decodeEncryptedContentV2 (encodeEncryptedContentV2 c ++ extra) = .ok (keptV2 c) := by
  rw [C67_encoding_v2] at hsize ⊢
  have hv : (flat (fieldsV2 c)).length < 2 ^ 64 := by
    rw [tlv, List.length_append, List.length_append] at hsize
    omega
  have a0 := At.start (t := 130) (rest := extra) (by decide) hv
  obtain ⟨e1, o1, g1, g2, g3⟩ := nested_At a0 ((fieldsV2_types c).lt (by decide))
  have g2' : At (tlv 130 (flat (fieldsV2 c)) ++ extra) o1 e1 ((132, c.payload.getD []) :: (opt 133 (written c.initialVector) ++
    (opt 134 (written c.payloadKey) ++
      opt 7 (if c.keyLocator.type = some 1 then some (flat (nameFields c.keyLocator.keyName)) else none)))) := by
    have : fieldsV2 c = (132, c.payload.getD []) :: (opt 133 (written c.initialVector) ++
      (opt 134 (written c.payloadKey) ++
        opt 7 (if c.keyLocator.type = some 1 then some (flat (nameFields c.keyLocator.keyName)) else none))) := by
      simp [fieldsV2]
    rw [← this]
    exact g2
  obtain ⟨o2, k1, k2⟩ := readBlobTlv_At g2'
  obtain ⟨o3, k3, k4⟩ := readOptionalBlobTlv_At k2 (((TypesIn.opt _).append (TypesIn.opt _)).ne (by decide))
  obtain ⟨o4, k5, k6⟩ := readOptionalBlobTlv_At k4 ((TypesIn.opt _).ne (by decide))
  unfold decodeEncryptedContentV2 runDec decodeEncryptedContentV2From
  rw [Dec.bind_ok g1, Dec.bind_ok k1, Dec.bind_ok k3, Dec.bind_ok k5]
  by_cases h : c.keyLocator.type = some 1
  · rw [if_pos h] at k6
    have k6 : At _ o4 e1 [(7, flat (nameFields c.keyLocator.keyName))] := k6
    obtain ⟨o5, b1, b2, m1, m2, _⟩ := name_At (hname h) k6
    have hd : decodeLocatorName.run (tlv 130 (flat (fieldsV2 c)) ++ extra) o4 =
        .ok ({ type := some 1, keyName := c.keyLocator.keyName }, o5) := by
      unfold decodeLocatorName
      rw [Dec.bind_ok m1]
      rfl
    rw [Dec.bind_ok ((optionally_present k6).trans hd), Dec.bind_ok (finishNestedTlvs_At m2)]
    show Except.ok _ = _
    rw [keptV2, if_pos h]
  · rw [if_neg h] at k6
    have k6 : At _ o4 e1 [] := k6
    rw [Dec.bind_ok (optionally_absent k6 (by simp)), Dec.bind_ok (finishNestedTlvs_At k6)]
    show Except.ok _ = _
    rw [keptV2, if_neg h]

/-! ### Version 1 -/

theorem fieldsV1_types (c : EncryptedContent) (a : Nat) : TypesIn (fieldsV1 c a) [28, 131, 133, 132] :=
  ((TypesIn.nil.cons.cons).append (TypesIn.opt _)).append TypesIn.nil.cons

/-- The encoding of version 1. -/
theorem C67_encoding_v1 (c : EncryptedContent) (a : Nat) (ha : c.algorithmType = some a) (hk : KeyLocatorOk c.keyLocator) :
    encodeEncryptedContent c = .ok (tlv 130 (flat (fieldsV1 c a))) := by
  unfold encodeEncryptedContent
  rw [ha]
  simp only [optional_flat, blobTlv_flat, flat_app, writeNonNegativeIntegerTlv_nat, ← flat_one, bind, Except.bind,
    encodeKeyLocator_spec 28 _ hk]
  have := closeTlv 130 (fieldsV1 c a) []
  simp only [List.append_nil, List.length_nil, Nat.sub_zero, pure, Except.pure] at this ⊢
  rw [← this]
  simp [fieldsV1]

/-- Version 1 without an algorithm cannot be encoded. -/
theorem C67_no_algorithm (c : EncryptedContent) (ha : c.algorithmType = none) : encodeEncryptedContent c = .error .type := by
  unfold encodeEncryptedContent
  rw [ha]
  rfl

/-- What was encoded as version 1 is decoded to the same algorithm, key locator, initial vector and payload, whatever follows; the
payload key is not part of version 1. -/
theorem C67_roundtrip_v1 (c : EncryptedContent) (a : Nat) (ha : c.algorithmType = some a) (ha' : a < 2 ^ 64)
    (hk : KeyLocatorOk c.keyLocator) (wire : Bytes) (hw : encodeEncryptedContent c = .ok wire) (hsize : wire.length < 2 ^ 64) (extra : Bytes) :
    ∃ d, decodeEncryptedContent (wire ++ extra) = .ok d ∧ d.algorithmType = some a ∧ SameKeyLocator c.keyLocator d.keyLocator ∧
      d.initialVector = written c.initialVector ∧ d.payload = some (c.payload.getD []) ∧ d.payloadKey = none := by
  rw [C67_encoding_v1 c a ha hk] at hw
  cases hw
  have hv : (flat (fieldsV1 c a)).length < 2 ^ 64 := by
    rw [tlv, List.length_append, List.length_append] at hsize
    omega
  have a0 := At.start (t := 130) (rest := extra) (by decide) hv
  obtain ⟨e1, o1, g1, g2, g3⟩ := nested_At a0 ((fieldsV1_types c a).lt (by decide))
  have g2' : At (tlv 130 (flat (fieldsV1 c a)) ++ extra) o1 e1 ((28, flat (keyLocatorFields c.keyLocator)) :: (131, nonNeg a) ::
      (opt 133 (written c.initialVector) ++ [(132, c.payload.getD [])])) := by
    have : fieldsV1 c a = (28, flat (keyLocatorFields c.keyLocator)) :: (131, nonNeg a) ::
      (opt 133 (written c.initialVector) ++ [(132, c.payload.getD [])]) := by simp [fieldsV1]
    rw [← this]
    exact g2
  obtain ⟨kl, o2, k1, k2, k3⟩ := decodeKeyLocator_At hk g2'
  obtain ⟨o3, k4, k5⟩ := readNonNegativeIntegerTlv_At ha' k3
  obtain ⟨o4, k6, k7⟩ := readOptionalBlobTlv_At k5 (by simp)
  obtain ⟨o5, k8, k9⟩ := readBlobTlv_At k7
  unfold decodeEncryptedContent runDec decodeEncryptedContentFrom
  rw [Dec.bind_ok g1, Dec.bind_ok k1, Dec.bind_ok k4, Dec.bind_ok k6, Dec.bind_ok k8, Dec.bind_ok (finishNestedTlvs_At k9)]
  exact ⟨_, rfl, rfl, k2, rfl, rfl, rfl⟩

/-! ### Any bytes -/

/-- Decoding any bytes returns or raises a documented exception. -/
theorem C67_any_v1 (input : Bytes) : Documented (decodeEncryptedContent input) :=
  runDec_documented (.bind (.readNestedTlvsStart _) fun _ => .bind (.decodeKeyLocator _) fun _ => .bind (.readNonNegativeIntegerTlv _) fun _ =>
    .bind (.readOptionalBlobTlv _ _) fun _ => .bind (.readBlobTlv _) fun _ => .bind (.finishNestedTlvs _ _) fun _ => .pure _) input

theorem Safe.decodeLocatorName : Safe decodeLocatorName := .bind .decodeNameFrom fun _ => .pure _

theorem C67_any_v2 (input : Bytes) : Documented (decodeEncryptedContentV2 input) :=
  runDec_documented (.bind (.readNestedTlvsStart _) fun _ => .bind (.readBlobTlv _) fun _ => .bind (.readOptionalBlobTlv _ _) fun _ =>
    .bind (.readOptionalBlobTlv _ _) fun _ => .bind (.optionally _ _ _ Safe.decodeLocatorName) fun _ => .bind (.finishNestedTlvs _ _) fun _ => .pure _) input

/-! ### Safe bags -/

/-- A safe bag is decoded to the same certificate and the same private key bytes, whatever follows. -/
theorem C67_safe_bag (b : SafeBag) (hd : DataOk b.certificate) (wire : Bytes) (hw : b.wireEncode = .ok wire)
    (hsize : wire.length < 2 ^ 64) (extra : Bytes) :
    ∃ b', SafeBag.wireDecode (wire ++ extra) = .ok b' ∧ SameData b.certificate b'.certificate ∧ b'.privateKeyBag = b.privateKeyBag := by
  obtain ⟨v, ⟨x, y, h1, h2, h3⟩, _, _⟩ := data_spec b.certificate hd
  generalize hfs : flat (signedFields b.certificate v ++ [(23, b.certificate.signature.signature.getD [])]) = fs at h1
  have he : wire = tlv 128 (flat [(6, fs), (129, b.privateKeyBag)]) := by
    unfold SafeBag.wireEncode at hw
    rw [h1] at hw
    simp only [bind, Except.bind, blobTlv_flat, pure, Except.pure, writeBuffer, List.length_nil, Nat.sub_zero, List.append_nil,
      Option.getD_some, ] at hw
    have h := closeTlv 128 [(6, fs), (129, b.privateKeyBag)] []
    simp only [List.append_nil, List.length_nil, Nat.sub_zero, flat_one] at h
    cases hw
    rw [← h, ← flat_one, ← flat_append]
    rfl
  subst he
  have hv : (flat [(6, fs), (129, b.privateKeyBag)]).length < 2 ^ 64 := by
    rw [tlv, List.length_append, List.length_append] at hsize
    omega
  have a0 := At.start (t := 128) (rest := extra) (by decide) hv
  obtain ⟨e1, o1, g1, g2, g3⟩ := nested_At a0 (by
    intro p hp
    simp only [List.mem_cons, List.not_mem_nil, or_false] at hp
    rcases hp with rfl | rfl
    · show 6 < 2 ^ 64; decide
    · show 129 < 2 ^ 64; decide)
  obtain ⟨rest, hhead⟩ := g2.head
  obtain ⟨d', r1, r2⟩ := C22_roundtrip b.certificate {} hd _ _ _ h1 (by
    have hv' := hv
    rw [flat_cons, List.length_append] at hv'
    have : (tlv (6, fs).1 (6, fs).2).length = (tlv 6 fs).length := rfl
    omega) []
  rw [List.append_nil] at r1
  have hstart := readNestedTlvsStart_tlv g2.bound.1 g2.bound.2 hhead
  have hn := g2.next
  obtain ⟨o2, k1, k2⟩ := readBlobTlv_At hn
  have hslice : ((tlv 128 (flat [(6, fs), (129, b.privateKeyBag)]) ++ extra).take (o1 + (tlv 6 fs).length)).drop o1 = tlv 6 fs := by
    rw [List.drop_take, hhead, Nat.add_sub_cancel_left, List.take_left]
  have hget : (getSlice o1 (o1 + (tlv 6 fs).length)).run (tlv 128 (flat [(6, fs), (129, b.privateKeyBag)]) ++ extra)
      (o1 + (tlv 6 fs).length) = .ok (tlv 6 fs, o1 + (tlv 6 fs).length) := by
    show Except.ok _ = _
    rw [hslice]
  have hlift : (Dec.lift (decodeData {} (tlv 6 fs))).run (tlv 128 (flat [(6, fs), (129, b.privateKeyBag)]) ++ extra)
      (o1 + (tlv 6 fs).length) = .ok ((d', x, y), o1 + (tlv 6 fs).length) := by
    rw [r1]; rfl
  unfold SafeBag.wireDecode runDec SafeBag.wireDecodeFrom
  rw [Dec.bind_ok g1, Dec.bind_ok (getOffset_run _ _), Dec.bind_ok hstart, Dec.bind_ok (show (seek _).run _ _ = .ok ((), o1 + (tlv 6 fs).length) from rfl),
    Dec.bind_ok hget, Dec.bind_ok hlift]
  dsimp only
  rw [Dec.bind_ok k1, Dec.bind_ok (finishNestedTlvs_At k2)]
  exact ⟨_, rfl, r2, rfl⟩

/-- Decoding any bytes as a safe bag returns or raises a documented exception. -/
theorem C67_any_safe_bag (input : Bytes) : Documented (SafeBag.wireDecode input) :=
  runDec_documented (.bind (.readNestedTlvsStart _) fun _ => .bind .getOffset fun _ => .bind (.readNestedTlvsStart _) fun _ =>
    .bind (.seek _) fun _ => .bind (.getSlice _ _) fun _ => .bind (.lift fun e he => by
      rcases C04_data {} _ with ⟨a, h⟩ | h | h <;> rw [h] at he <;> cases he
      · exact .inl rfl
      · exact .inr rfl) fun _ => .bind (.readBlobTlv _) fun _ => .bind (.finishNestedTlvs _ _) fun _ => .pure _) input

/-! ### Examples -/

/-- An encrypted content with all fields. -/
def exContent : EncryptedContent :=
  { algorithmType := some 1, keyLocator := { type := some 1, keyName := [⟨.generic, [67, 75]⟩, ⟨.generic, [9]⟩] },
    initialVector := some [1, 2, 3, 4], payload := some [7, 8, 9], payloadKey := some [5, 6] }

theorem exContent_name : CanonicalName exContent.keyLocator.keyName := by
  intro c hc
  simp only [exContent, List.mem_cons, List.not_mem_nil, or_false] at hc
  rcases hc with rfl | rfl <;> exact trivial

example : decodeEncryptedContentV2 (encodeEncryptedContentV2 exContent ++ [200, 201]) = .ok (keptV2 exContent) :=
  C67_roundtrip_v2 exContent (fun _ => exContent_name) (by decide) [200, 201]

example : ∃ wire, encodeEncryptedContent exContent = .ok wire ∧ wire.length < 2 ^ 64 ∧ KeyLocatorOk exContent.keyLocator :=
  ⟨_, C67_encoding_v1 exContent 1 rfl (.inr (.inl ⟨rfl, exContent_name⟩)), by decide, .inr (.inl ⟨rfl, exContent_name⟩)⟩

/-- A safe bag with a certificate. -/
def exBag : SafeBag :=
  { certificate := { name := [⟨.generic, [65]⟩], metaInfo := {}, content := some [1, 2, 3], signature := { info := .digest, signature := some [4, 5] } }
    privateKeyBag := [9, 9, 9] }

example : DataOk exBag.certificate ∧ ∃ wire, exBag.wireEncode = .ok wire ∧ wire.length < 2 ^ 64 := by
  refine ⟨⟨?_, ⟨.inl (by decide), by simp [exBag], trivial, fun _ => rfl⟩, trivial⟩, ?_⟩
  · intro c hc
    simp only [exBag, List.mem_cons, List.not_mem_nil, or_false] at hc
    subst hc
    exact trivial
  · have h : ∃ w, exBag.wireEncode = .ok w ∧ w.length < 100 := ⟨_, rfl, by decide⟩
    obtain ⟨w, h1, h2⟩ := h
    exact ⟨w, h1, by omega⟩

end Encrypt
end PyNDN
