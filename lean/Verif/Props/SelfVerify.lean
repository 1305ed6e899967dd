import Verif.Lemmas.SelfVerify
import Verif.Props.HmacSign
import Verif.Props.IdentityStorage
/-
C88: the verification policies of security v1 that need no configuration, and signing by the identity manager.
-/
namespace PyNDN.SelfVerify
open PyNDN PyNDN.Spec PyNDN.Spec.SelfVerify PyNDN.HmacSign PyNDN.ConfigPolicy

variable {S : Store} {C : Crypto}

theorem answer_of {b : Bool} : Answer.of b = .verified ↔ b = true := by cases b <;> decide

/-- A Data packet is verified exactly if its signature is justified by the stored keys. -/
theorem C88_data (o : DataObj) :
    verifyData (.selfVerify S) C o = .ok .verified ↔
      ∃ wire b e, o.wireEncode = .ok (wire, b, e) ∧ Justified S C o.data.signature (slice wire b e) := by
  simp only [verifyData]
  cases hw : o.wireEncode with
  | error e =>
    constructor
    · intro h; cases h
    · rintro ⟨_, _, _, h, _⟩; cases h
  | ok w =>
    obtain ⟨wire, b, e⟩ := w
    dsimp only
    have h1 : signedBytes (wire, b, e) = slice wire b e := rfl
    rw [h1]
    constructor
    · intro h
      refine ⟨wire, b, e, rfl, justified_iff.mp ?_⟩
      split at h
      · cases h
      · rename_i r hr
        injection h with h
        rw [hr, answer_of.mp h]
    · rintro ⟨_, _, _, h, hj⟩
      cases h
      rw [justified_iff.mpr hj]
      rfl

/-- An Interest is verified exactly if the signature in its name is justified by the stored keys. -/
theorem C88_interest (rnd : Nat → UInt8) (o : InterestObj) :
    verifyInterest (.selfVerify S) C rnd o = .ok .verified ↔
      ∃ sig wire b e, Validator.interestSignature o.interest.name = .ok sig ∧ o.wireEncode rnd = .ok (wire, b, e) ∧
        Justified S C sig (slice wire b e) := by
  have hshort : o.interest.name.length < 2 → ∀ sig, Validator.interestSignature o.interest.name ≠ .ok sig := by
    intro h sig
    generalize o.interest.name = n at h
    match n, h with
    | [], _ => intro h; cases h
    | [_], _ => intro h; cases h
    | _ :: _ :: _, h => exact absurd h (by simp)
  simp only [verifyInterest]
  split
  · rename_i hs
    constructor
    · intro h; cases h
    · rintro ⟨sig, _, _, _, h, _⟩; exact absurd h (hshort hs sig)
  · cases hg : Validator.interestSignature o.interest.name with
    | error e =>
      constructor
      · intro h; cases h
      · rintro ⟨_, _, _, _, h, _⟩; cases h
    | ok sig =>
      dsimp only
      cases hw : o.wireEncode rnd with
      | error e =>
        constructor
        · intro h; cases h
        · rintro ⟨_, _, _, _, _, h, _⟩; cases h
      | ok w =>
        obtain ⟨wire, b, e⟩ := w
        dsimp only
        have h1 : signedBytes (wire, b, e) = slice wire b e := rfl
        rw [h1]
        constructor
        · intro h
          refine ⟨sig, wire, b, e, rfl, rfl, justified_iff.mp ?_⟩
          split at h
          · cases h
          · rename_i r hr
            injection h with h
            rw [hr, answer_of.mp h]
        · rintro ⟨_, _, _, _, h, h', hj⟩
          cases h
          cases h'
          rw [justified_iff.mpr hj]
          rfl

theorem failed_iff {α : Type} {a : Except α Answer} (h : ∃ b, a = .ok b) : a = .ok .failed ↔ ¬ a = .ok .verified := by
  obtain ⟨b, rfl⟩ := h
  cases b <;> simp

/-- If the packet can be encoded, the kind of signature is known and the storage answers, then one of the two callbacks is called, and it
is onValidationFailed exactly if the signature is not justified. -/
theorem C88_data_failed (ha : Answers S C) (o : DataObj) (hk : Known o.data.signature.info) (wire : Bytes) (b e : Nat)
    (hw : o.wireEncode = .ok (wire, b, e)) :
    verifyData (.selfVerify S) C o = .ok .failed ↔ ¬ Justified S C o.data.signature (slice wire b e) := by
  rw [failed_iff, C88_data]
  · constructor
    · intro h hj
      exact h ⟨wire, b, e, hw, hj⟩
    · rintro h ⟨_, _, _, h1, hj⟩
      rw [hw] at h1
      cases h1
      exact h hj
  · simp only [verifyData, hw]
    obtain ⟨r, hr⟩ := verify_answers (m := signedBytes (wire, b, e)) hk ha
    rw [hr]
    exact ⟨_, rfl⟩

/-- The same for an Interest; a name without a signature needs no more. -/
theorem C88_interest_failed (ha : Answers S C) (rnd : Nat → UInt8) (o : InterestObj)
    (hk : ∀ sig, Validator.interestSignature o.interest.name = .ok sig → Known sig.info ∧ ∃ w, o.wireEncode rnd = .ok w) :
    verifyInterest (.selfVerify S) C rnd o = .ok .failed ↔
      ∀ sig wire b e, Validator.interestSignature o.interest.name = .ok sig → o.wireEncode rnd = .ok (wire, b, e) →
        ¬ Justified S C sig (slice wire b e) := by
  rw [failed_iff, C88_interest]
  · constructor
    · intro h sig wire b e h1 h2 h3
      exact h ⟨sig, wire, b, e, h1, h2, h3⟩
    · rintro h ⟨sig, wire, b, e, h1, h2, h3⟩
      exact h sig wire b e h1 h2 h3
  · simp only [verifyInterest]
    split
    · exact ⟨_, rfl⟩
    · cases hg : Validator.interestSignature o.interest.name with
      | error e => exact ⟨_, rfl⟩
      | ok sig =>
        obtain ⟨h1, w, h2⟩ := hk sig hg
        obtain ⟨r, hr⟩ := verify_answers (m := signedBytes w) h1 ha
        rw [h2]
        dsimp only
        rw [hr]
        exact ⟨_, rfl⟩

/-- The other policy verifies everything. -/
theorem C88_no_verify (rnd : Nat → UInt8) (o : DataObj) (i : InterestObj) :
    verifyData .noVerify C o = .ok .verified ∧ verifyInterest .noVerify C rnd i = .ok .verified := ⟨rfl, rfl⟩

/-! ### What verifies has been signed -/

/-- Whatever bytes are received: if they decode to a Data packet that is verified, then it has a digest, or it says what a packet says
that has been signed, or somebody has a signature, with the stored key, of a message that nobody signed. -/
theorem C88_data_unforgeable (signed : DataObj → Prop) (hs : ∀ o, signed o → DataOk o.data ∧ ∀ w, encodeData o.data = .ok w → w.1.length < 2 ^ 64)
    (old : Data) (input : Bytes) (r : DataObj) (hr : receive old input = .ok r) (hv : verifyData (.selfVerify S) C r = .ok .verified) :
    r.data.signature.info = .digest ∨ (∃ o, signed o ∧ Spec.HmacSign.SaySame o.data r.data) ∨
      ∃ kl der, r.data.signature.info.keyLocator? = some kl ∧ Names S kl der ∧ ForgedData C der signed r.data.signature.signature := by
  obtain ⟨wire, b, e, h1, hj⟩ := (C88_data r).mp hv
  rcases hj with ⟨hj, _⟩ | ⟨kl, der, hi, hn, hc⟩
  · exact Or.inl hj
  · right
    unfold receive at hr
    split at hr
    · rename_i d b' e' hd
      cases hr
      cases h1
      by_cases hex : ∃ o, signed o ∧ ∃ wire b' e', encodeData o.data = .ok (wire, b', e') ∧ slice wire b' e' = slice input b e
      · left
        obtain ⟨o, ho, wire, b', e', q1, q2⟩ := hex
        obtain ⟨p1, p2⟩ := hs o ho
        obtain ⟨w, b2, e2, v, g1, g2, g3, g4⟩ := C22_encoding o.data p1
        rw [q1] at g1
        cases g1
        have hlen : wire.length < 2 ^ 64 := p2 _ q1
        have g3' : slice wire b' e' = flat (signedFields o.data v) := g3
        refine ⟨o, ho, data_of_signed p1 g4 ?_ hd (by rw [← q2, g3'])⟩
        rw [← g3']
        unfold slice
        rw [List.length_drop, List.length_take]
        omega
      · right
        refine ⟨kl, der, ?_, hn, _, hc, fun o ho wire b' e' hw heq => hex ⟨o, ho, wire, b', e', hw, heq⟩⟩
        rcases hi with ⟨v, hi⟩ | ⟨v, hi⟩ <;> rw [hi] <;> rfl
    · cases hr

/-- The same for an Interest: the name up to the last component, that is with the signature info, has been signed. -/
theorem C88_interest_unforgeable (signed : InterestObj → Prop)
    (hs : ∀ o, signed o → InterestOk o.interest ∧ ∀ rnd w, encodeInterest o.interest rnd = .ok w → w.1.length < 2 ^ 64)
    (old : Interest) (input : Bytes) (rnd : Nat → UInt8) (r : InterestObj) (hr : receiveInterest old input = .ok r)
    (hv : verifyInterest (.selfVerify S) C rnd r = .ok .verified) :
    ∃ sig, Validator.interestSignature r.interest.name = .ok sig ∧
      (sig.info = .digest ∨ (∃ o, signed o ∧ r.interest.name.dropLast = o.interest.name.dropLast) ∨
        ∃ kl der, sig.info.keyLocator? = some kl ∧ Names S kl der ∧ ForgedInterest C der signed sig.signature) := by
  obtain ⟨sig, wire, b, e, h0, h1, hj⟩ := (C88_interest rnd r).mp hv
  refine ⟨sig, h0, ?_⟩
  rcases hj with ⟨hj, _⟩ | ⟨kl, der, hi, hn, hc⟩
  · exact Or.inl hj
  · right
    unfold receiveInterest at hr
    split at hr
    · rename_i i b' e' hd
      cases hr
      cases h1
      by_cases hex : ∃ o, signed o ∧ ∃ rnd wire b' e', encodeInterest o.interest rnd = .ok (wire, b', e') ∧ slice wire b' e' = slice input b e
      · left
        obtain ⟨o, ho, rnd', wire, b', e', q1, q2⟩ := hex
        obtain ⟨p1, p2⟩ := hs o ho
        obtain ⟨wire', b'', e'', k1, k2, k3, k4⟩ := KeyChain.interest_received o.interest p1 rnd'
        rw [q1] at k1
        cases k1
        have hlen : wire.length < 2 ^ 64 := p2 _ _ q1
        have hcan : CanonicalName o.interest.name.dropLast := fun c hc => p1.name c (List.dropLast_subset _ hc)
        have hl : (flat (nameFields o.interest.name.dropLast)).length < 2 ^ 64 := by
          rw [← k2]
          unfold slice
          rw [List.length_drop, List.length_take]
          omega
        exact ⟨o, ho, interest_of_signed hcan hl hd (by rw [← q2, k2])⟩
      · right
        refine ⟨kl, der, ?_, hn, _, hc, fun o ho rnd wire b' e' hw heq => hex ⟨o, ho, rnd, wire, b', e', hw, heq⟩⟩
        rcases hi with ⟨v, hi⟩ | ⟨v, hi⟩ <;> rw [hi] <;> rfl
    · cases hr

/-! ### What has been signed verifies -/

theorem names_same {kl kl' : KeyLocator} {der : Bytes} (h : SameKeyLocator kl kl') (hn : Names S kl der) : Names S kl' der := by
  obtain ⟨h1, h2, _⟩ := h
  obtain ⟨h4, h5⟩ := hn
  refine ⟨h1 ▸ h4, ?_⟩
  rw [← h2 h4]
  exact h5

theorem justified_same {sig sig' : Signature} {m : Bytes} (h : SameSigInfo sig.info sig'.info) (hb : sig.signature = sig'.signature)
    (hj : Justified S C sig m) : Justified S C sig' m := by
  rcases hj with ⟨h1, h2⟩ | ⟨kl, der, ⟨v, h1⟩ | ⟨v, h1⟩, h2, h3⟩
  · left
    rw [h1] at h
    refine ⟨?_, hb ▸ h2⟩
    cases hi : sig'.info <;> rw [hi] at h <;> first | rfl | exact h.elim
  · right
    rw [h1] at h
    cases hi : sig'.info with
    | rsa kl' v' =>
      rw [hi] at h
      exact ⟨kl', der, Or.inl ⟨v', rfl⟩, names_same h.1 h2, hb ▸ h3⟩
    | _ => rw [hi] at h; exact h.elim
  · right
    rw [h1] at h
    cases hi : sig'.info with
    | ecdsa kl' v' =>
      rw [hi] at h
      exact ⟨kl', der, Or.inr ⟨v', rfl⟩, names_same h.1 h2, hb ▸ h3⟩
    | _ => rw [hi] at h; exact h.elim

/-- A Data packet after signing: it is the packet before with the signature, its encoding is cached, and its signed portion has been
signed. -/
theorem signDataWith_ok {info : SigInfo} {sign : Bytes → Except Exn Bytes} {o : DataObj} (hok : DataOk { o.data with signature := { info := info } })
    (hs : ∀ m, ∃ bits, sign m = .ok bits) :
    ∃ o' wire b e bits, signDataWith info sign o = .ok o' ∧ sign (slice wire b e) = .ok bits ∧
      o' = { data := { o.data with signature := { info := info, signature := some bits } }, cached := some (wire, b, e) } ∧
      encodeData o'.data = .ok (wire, b, e) ∧ DataOk o'.data := by
  obtain ⟨w0, b0, e0, v0, p1, _, p3, p4⟩ := C22_encoding _ hok
  obtain ⟨bits, hb⟩ := hs (slice w0 b0 e0)
  let d' : Data := { o.data with signature := { info := info, signature := some bits } }
  have hok' : DataOk d' := hok
  obtain ⟨w, b, e, v, q1, q2, q3, q4⟩ := C22_encoding d' hok'
  have hv : v = v0 := by
    have p4' : encodeSignatureInfo d'.signature.info [] = .ok (tlv 22 v0) := p4
    rw [q4] at p4'
    injection p4' with p4'
    exact KeyChain.tlv_inj' p4'
  have hsl : slice w b e = slice w0 b0 e0 := by rw [q3, p3, hv]
  refine ⟨{ data := d', cached := some (w, b, e) }, w, b, e, bits, ?_, hsl ▸ hb, rfl, q1, hok'⟩
  unfold signDataWith
  simp only [p1, lift, bind, Except.bind]
  have h1 : sign (signedBytes (w0, b0, e0)) = .ok bits := hb
  rw [h1]
  dsimp only
  have h2 : encodeData { o.data with signature := { info := info, signature := some bits } } = .ok (w, b, e) := q1
  rw [h2]
  rfl

/-- A Data packet whose signature is justified is verified where it is, and wherever its encoding is received. -/
theorem received_verified {o : DataObj} {wire : Bytes} {b e : Nat} {bits : Bytes} (hc : o.cached = some (wire, b, e))
    (he : encodeData o.data = .ok (wire, b, e)) (hok : DataOk o.data) (hb : o.data.signature.signature = some bits) (hne : bits ≠ [])
    (hj : Justified S C o.data.signature (slice wire b e)) :
    o.wireEncode = .ok (wire, b, e) ∧ verifyData (.selfVerify S) C o = .ok .verified ∧
      (wire.length < 2 ^ 64 → ∀ old extra, ∃ r, receive old (wire ++ extra) = .ok r ∧ SameData o.data r.data ∧
        verifyData (.selfVerify S) C r = .ok .verified) := by
  have hw : o.wireEncode = .ok (wire, b, e) := by
    unfold DataObj.wireEncode
    rw [hc]
  refine ⟨hw, (C88_data o).mpr ⟨wire, b, e, hw, hj⟩, fun hsize old extra => ?_⟩
  obtain ⟨r, g1, g2⟩ := C22_roundtrip o.data old hok wire b e he hsize extra
  refine ⟨{ data := r, cached := some (wire ++ extra, b, e) }, ?_, g2, (C88_data _).mpr ⟨wire ++ extra, b, e, rfl, ?_⟩⟩
  · unfold receive
    rw [g1]
  · have hsl : slice (wire ++ extra) b e = slice wire b e := by
      unfold slice
      have hle : e ≤ wire.length := by
        obtain ⟨v', ⟨b', e', q1, q2, q3⟩, _⟩ := data_spec o.data hok
        rw [he] at q1
        cases q1
        have q4 : (flat (signedFields o.data v')).length ≤ (flat (signedFields o.data v' ++ [(23, o.data.signature.signature.getD [])])).length := by
          rw [flat_append, List.length_append]; omega
        omega
      rw [List.take_append_of_le_length hle]
    have hsig : r.signature.signature = some bits := by
      refine KeyChain.some_of_getD ?_ hne
      rw [← g2.2.2.2.2, hb]
      rfl
    rw [hsl]
    exact justified_same g2.2.2.2.1 (by rw [hb, hsig]) hj

/-- The signature that is made for a certificate. -/
theorem makeSignature_ok {T : PrivateKeys} {cert k : Name} {t : KeyType} (hk : IsKeyNameOf cert k) (ht : T.keyType k = .ok t)
    (hne : t ≠ .other) (hcan : CanonicalName cert) :
    ∃ info, makeSignature T cert = .ok (info, k) ∧ SigInfoOk info ∧
      ((∃ v, info = .rsa { type := some 1, keyName := cert.dropLast } v) ∨ ∃ v, info = .ecdsa { type := some 1, keyName := cert.dropLast } v) := by
  have hkl : KeyLocatorOk { type := some 1, keyName := cert.dropLast } := Or.inr (Or.inl ⟨rfl, fun c hc => hcan c (List.dropLast_subset _ hc)⟩)
  unfold makeSignature
  simp only [keyName_iff.mpr hk, lift, bind, Except.bind, ht]
  cases t with
  | rsa => exact ⟨_, rfl, ⟨hkl, (fun _ _ h => by cases h)⟩, Or.inl ⟨_, rfl⟩⟩
  | ec => exact ⟨_, rfl, ⟨hkl, (fun _ _ h => by cases h)⟩, Or.inr ⟨_, rfl⟩⟩
  | other => exact absurd rfl hne

/-- A Data packet that is signed by a certificate is the same packet with a signature that names the certificate without its last
component; if the storage has the public key under this name, then it is verified, where it was signed and wherever it is received. -/
theorem C88_signed_data (T : PrivateKeys) (cert k : Name) (t : KeyType) (der : Bytes) (hk : IsKeyNameOf cert k) (hcan : CanonicalName cert)
    (ht : T.keyType k = .ok t) (hne : t ≠ .other) (hs : ∀ m, ∃ bits, T.sign m k = .ok bits) (hp : Pair T C k der)
    (hn : Names S { type := some 1, keyName := cert.dropLast } der) (o : DataObj) (hname : CanonicalName o.data.name) (hmeta : MetaInfoOk o.data.metaInfo) :
    ∃ o' wire b e info bits, signData T cert o = .ok o' ∧ o'.data = { o.data with signature := { info := info, signature := some bits } } ∧
      info.keyLocator? = some { type := some 1, keyName := cert.dropLast } ∧ o'.wireEncode = .ok (wire, b, e) ∧
      encodeData o'.data = .ok (wire, b, e) ∧ verifyData (.selfVerify S) C o' = .ok .verified ∧
      (wire.length < 2 ^ 64 → ∀ old extra, ∃ r, receive old (wire ++ extra) = .ok r ∧ SameData o'.data r.data ∧
        verifyData (.selfVerify S) C r = .ok .verified) := by
  obtain ⟨info, h1, h2, h3⟩ := makeSignature_ok hk ht hne hcan
  obtain ⟨o', wire, b, e, bits, g1, g2, g3, g4, g5⟩ := signDataWith_ok (o := o) (info := info) (sign := fun m => T.sign m k) ⟨hname, hmeta, h2⟩ hs
  obtain ⟨p1, p2⟩ := hp _ _ g2
  have hj : Justified S C o'.data.signature (slice wire b e) := by
    right
    refine ⟨_, der, ?_, hn, ?_⟩
    · rw [g3]; exact h3
    · rw [g3]; exact p2
  obtain ⟨q1, q2, q3⟩ := received_verified (by rw [g3]) g4 g5 (by rw [g3]) p1 hj
  refine ⟨o', wire, b, e, info, bits, ?_, by rw [g3], ?_, q1, g4, q2, q3⟩
  · unfold signData
    simp only [h1, bind, Except.bind]
    exact g1
  · rcases h3 with ⟨v, h3⟩ | ⟨v, h3⟩ <;> rw [h3] <;> rfl

/-- A Data packet with a digest is verified, whatever the storage. -/
theorem C88_digest_data (hsha : ∀ m, C.sha256 m ≠ []) (o : DataObj) (hname : CanonicalName o.data.name) (hmeta : MetaInfoOk o.data.metaInfo) :
    ∃ o' wire b e, signDataWithSha256 C o = .ok o' ∧
      o'.data = { o.data with signature := { info := .digest, signature := some (C.sha256 (slice wire b e)) } } ∧
      o'.wireEncode = .ok (wire, b, e) ∧ encodeData o'.data = .ok (wire, b, e) ∧ verifyData (.selfVerify S) C o' = .ok .verified ∧
      (wire.length < 2 ^ 64 → ∀ old extra, ∃ r, receive old (wire ++ extra) = .ok r ∧ SameData o'.data r.data ∧
        verifyData (.selfVerify S) C r = .ok .verified) := by
  obtain ⟨o', wire, b, e, bits, g1, g2, g3, g4, g5⟩ := signDataWith_ok (o := o) (info := .digest) (sign := fun m => .ok (C.sha256 m))
    ⟨hname, hmeta, trivial⟩ fun m => ⟨_, rfl⟩
  injection g2 with g2
  have hj : Justified S C o'.data.signature (slice wire b e) := Or.inl ⟨by rw [g3], by rw [g3, g2]⟩
  obtain ⟨q1, q2, q3⟩ := received_verified (by rw [g3]) g4 g5 (by rw [g3]) (by rw [← g2]; exact hsha _) hj
  exact ⟨o', wire, b, e, g1, by rw [g3, g2], q1, g4, q2, q3⟩

/-- An Interest that is signed: two components more, and it is verified where it is, and wherever its encoding is received. -/
theorem signInterestWith_ok {info : SigInfo} {sign : Bytes → Except Exn Bytes} (hinfo : SigInfoOk info)
    (hs : ∀ m, ∃ bits, sign m = .ok bits ∧ ∀ sig : Signature, SameSigInfo info sig.info → sig.signature = some bits → Justified S C sig m)
    {o : InterestObj} (hok : InterestOk o.interest) (rnd : Nat → UInt8) :
    ∃ o' x y, signInterestWith info sign rnd o = .ok o' ∧
      o'.interest = { o.interest with name := o.interest.name ++ [x] ++ [y], nonce := none } ∧
      ∀ rnd2, ∃ wire b e, encodeInterest o'.interest rnd2 = .ok (wire, b, e) ∧ o'.wireEncode rnd2 = .ok (wire, b, e) ∧ (wire.length < 2 ^ 64 →
        (∃ sig, Validator.interestSignature o'.interest.name = .ok sig ∧ SameSigInfo info sig.info) ∧
        verifyInterest (.selfVerify S) C rnd2 o' = .ok .verified ∧
        ∀ old extra, ∃ r, receiveInterest old (wire ++ extra) = .ok r ∧ r.interest.name = o'.interest.name ∧
          ∀ rnd3, verifyInterest (.selfVerify S) C rnd3 r = .ok .verified) := by
  obtain ⟨v, hv, _⟩ := signatureInfo_roundtrip info hinfo
  have hcan : ∀ x y, CanonicalName (o.interest.name ++ [Component.generic x] ++ [Component.generic y]) := by
    intro x y c hc
    rcases List.mem_append.1 hc with hc | hc
    · rcases List.mem_append.1 hc with hc | hc
      · exact hok.name c hc
      · rw [List.mem_singleton.1 hc]; trivial
    · rw [List.mem_singleton.1 hc]; trivial
  have hok' : ∀ x y, InterestOk { o.interest with name := o.interest.name ++ [Component.generic x] ++ [Component.generic y], nonce := none } := fun x y =>
    ⟨hcan x y, hok.minSuffix, hok.maxSuffix, hok.keyLocator, hok.exclude, hok.childSelector, hok.lifetime, hok.forwardingHint, hok.link, hok.selectedDelegation, hok.exclusive⟩
  have he := hv []
  generalize flat [(22, v)] ++ [] = encoded at he
  obtain ⟨w, b, e, q1, q2, _, _⟩ := KeyChain.interest_received _ (hok' encoded []) rnd
  have q2' : slice w b e = flat (nameFields (o.interest.name ++ [Component.generic encoded])) := by
    rw [q2]
    show flat (nameFields (o.interest.name ++ [Component.generic encoded] ++ [_]).dropLast) = _
    rw [List.dropLast_concat]
  obtain ⟨bits, hb, hj⟩ := hs (slice w b e)
  refine ⟨{ interest := { o.interest with name := o.interest.name ++ [Component.generic encoded] ++
        [Component.generic (writeBlobTlv 23 (some bits) [])], nonce := none } }, _, _, ?_, rfl, fun rnd2 => ?_⟩
  · unfold signInterestWith
    simp only [he, lift, bind, Except.bind, q1]
    have h1 : sign (signedBytes (w, b, e)) = .ok bits := hb
    rw [h1]
    rfl
  · have hoki := hok' encoded (writeBlobTlv 23 (some bits) [])
    obtain ⟨wire, b', e', g1, g2, g3, g4⟩ := KeyChain.interest_received _ hoki rnd2
    refine ⟨wire, b', e', g1, g1, fun hsize => ?_⟩
    have hm : slice wire b' e' = slice w b e := by
      rw [g2, q2']
      show flat (nameFields (o.interest.name ++ [Component.generic encoded] ++ [_]).dropLast) = _
      rw [List.dropLast_concat]
    have hlen : ∀ c ∈ o.interest.name ++ [Component.generic encoded] ++ [Component.generic (writeBlobTlv 23 (some bits) [])], c.value.length < 2 ^ 64 := by
      intro c hc
      have h4 : (Spec.key c).2.length ≤ (flat (nameFields (o.interest.name ++ [Component.generic encoded] ++
        [Component.generic (writeBlobTlv 23 (some bits) [])]))).length := KeyChain.flat_mem (List.mem_map.2 ⟨c, hc, rfl⟩)
      have h5 : (Spec.key c).2 = c.value := rfl
      rw [h5] at h4
      have g3' : (flat (nameFields (o.interest.name ++ [Component.generic encoded] ++
        [Component.generic (writeBlobTlv 23 (some bits) [])]))).length ≤ wire.length := g3
      omega
    have hl1 : encoded.length < 2 ^ 64 := hlen (Component.generic encoded) (by simp)
    have hl2 : bits.length < 2 ^ 64 := by
      have := hlen (Component.generic (writeBlobTlv 23 (some bits) [])) (by simp)
      have e2 : writeBlobTlv 23 (some bits) [] = tlv 23 bits := by rw [blobTlv_flat, flat_one]; simp
      rw [e2] at this
      have t := tlv_length 23 bits
      have : (tlv 23 bits).length < 2 ^ 64 := this
      omega
    obtain ⟨si, k1, k2⟩ := KeyChain.signature_of_name (n := o.interest.name) hinfo he hl1 hl2
    have hj' := hj { info := si, signature := some bits } k2 rfl
    refine ⟨⟨_, k1, k2⟩, (C88_interest _ _).mpr ⟨_, wire, b', e', k1, g1, ?_⟩, fun old extra => ?_⟩
    · rw [hm]
      exact hj'
    · obtain ⟨r, p1, p2⟩ := g4 hsize old extra
      refine ⟨{ interest := r, cached := some (wire ++ extra, b', e') }, ?_, p2, fun rnd3 => (C88_interest _ _).mpr ⟨{ info := si, signature := some bits }, wire ++ extra, b', e', ?_, rfl, ?_⟩⟩
      · unfold receiveInterest
        rw [p1]
      · show Validator.interestSignature r.name = _
        rw [p2]
        exact k1
      · have hsl : slice (wire ++ extra) b' e' = slice wire b' e' := by
          obtain ⟨r0, p3, _⟩ := g4 hsize o.interest []
          rw [List.append_nil] at p3
          unfold slice
          rw [List.take_append_of_le_length (interest_end p3)]
        rw [hsl, hm]
        exact hj'

/-- The same as `C88_signed_data` for an Interest, whose name gets two components. -/
theorem C88_signed_interest (T : PrivateKeys) (cert k : Name) (t : KeyType) (der : Bytes) (hk : IsKeyNameOf cert k) (hcan : CanonicalName cert)
    (ht : T.keyType k = .ok t) (hne : t ≠ .other) (hs : ∀ m, ∃ bits, T.sign m k = .ok bits) (hp : Pair T C k der)
    (hn : Names S { type := some 1, keyName := cert.dropLast } der) (o : InterestObj) (hok : InterestOk o.interest) (rnd : Nat → UInt8) :
    ∃ o' x y, signInterest T cert rnd o = .ok o' ∧ o'.interest = { o.interest with name := o.interest.name ++ [x] ++ [y], nonce := none } ∧
      ∀ rnd2, ∃ wire b e, encodeInterest o'.interest rnd2 = .ok (wire, b, e) ∧ o'.wireEncode rnd2 = .ok (wire, b, e) ∧ (wire.length < 2 ^ 64 →
        verifyInterest (.selfVerify S) C rnd2 o' = .ok .verified ∧
        ∀ old extra, ∃ r, receiveInterest old (wire ++ extra) = .ok r ∧ r.interest.name = o'.interest.name ∧
          ∀ rnd3, verifyInterest (.selfVerify S) C rnd3 r = .ok .verified) := by
  obtain ⟨info, h1, h2, h3⟩ := makeSignature_ok hk ht hne hcan
  obtain ⟨o', x, y, g1, g2, g3⟩ := signInterestWith_ok (S := S) (C := C) (sign := fun m => T.sign m k) h2 (fun m => by
    obtain ⟨bits, hb⟩ := hs m
    refine ⟨bits, hb, fun sig hsame hsig => justified_same (sig := { info := info, signature := some bits }) hsame hsig.symm ?_⟩
    exact Or.inr ⟨_, der, h3, hn, (hp _ _ hb).2⟩) hok rnd
  refine ⟨o', x, y, ?_, g2, fun rnd2 => ?_⟩
  · unfold signInterest
    simp only [h1, bind, Except.bind]
    exact g1
  · obtain ⟨wire, b, e, q1, q2, q3⟩ := g3 rnd2
    exact ⟨wire, b, e, q1, q2, fun hsize => (q3 hsize).2⟩

/-- An Interest with a digest is verified, whatever the storage. -/
theorem C88_digest_interest (o : InterestObj) (hok : InterestOk o.interest) (rnd : Nat → UInt8) :
    ∃ o' x y, signInterestWithSha256 C rnd o = .ok o' ∧ o'.interest = { o.interest with name := o.interest.name ++ [x] ++ [y], nonce := none } ∧
      ∀ rnd2, ∃ wire b e, encodeInterest o'.interest rnd2 = .ok (wire, b, e) ∧ o'.wireEncode rnd2 = .ok (wire, b, e) ∧ (wire.length < 2 ^ 64 →
        verifyInterest (.selfVerify S) C rnd2 o' = .ok .verified ∧
        ∀ old extra, ∃ r, receiveInterest old (wire ++ extra) = .ok r ∧ r.interest.name = o'.interest.name ∧
          ∀ rnd3, verifyInterest (.selfVerify S) C rnd3 r = .ok .verified) := by
  obtain ⟨o', x, y, g1, g2, g3⟩ := signInterestWith_ok (S := S) (C := C) (info := .digest) (sign := fun m => .ok (C.sha256 m)) trivial (fun m =>
    ⟨_, rfl, fun sig hsame hsig => justified_same (sig := { info := .digest, signature := some (C.sha256 m) }) hsame hsig.symm (Or.inl ⟨rfl, rfl⟩)⟩) hok rnd
  refine ⟨o', x, y, g1, g2, fun rnd2 => ?_⟩
  obtain ⟨wire, b, e, q1, q2, q3⟩ := g3 rnd2
  exact ⟨wire, b, e, q1, q2, fun hsize => (q3 hsize).2⟩

/-- A signed buffer is verified as it should be: the signature is justified. -/
theorem C88_signed_buffer (T : PrivateKeys) (cert k : Name) (t : KeyType) (der : Bytes) (hk : IsKeyNameOf cert k) (hcan : CanonicalName cert)
    (ht : T.keyType k = .ok t) (hne : t ≠ .other) (hs : ∀ m, ∃ bits, T.sign m k = .ok bits) (hp : Pair T C k der)
    (hn : Names S { type := some 1, keyName := cert.dropLast } der) (m : Bytes) :
    ∃ sig, signBuffer T cert m = .ok sig ∧ Justified S C sig m := by
  obtain ⟨info, h1, h2, h3⟩ := makeSignature_ok hk ht hne hcan
  obtain ⟨bits, hb⟩ := hs m
  refine ⟨{ info := info, signature := some bits }, ?_, Or.inr ⟨_, der, h3, hn, (hp _ _ hb).2⟩⟩
  unfold signBuffer
  simp only [h1, bind, Except.bind, hb]
  rfl

/-! ### The storage of keys -/

/-- The storage finds the key under the name in the signature, which is the certificate name without the last component, if the last
component is not the ID-CERT component. -/
theorem C88_same_key (getKey : Name → Except Exn (Option Bytes)) (cert k : Name) (der : Bytes) (hk : IsKeyNameOf cert k)
    (hl : ∀ c, cert.getLast? = some c → c.toEscapedString ≠ "ID-CERT".toList) (hg : getKey k = .ok (some der)) :
    Names (.identity getKey) { type := some 1, keyName := cert.dropLast } der :=
  ⟨rfl, k, keyName_prefix hk hl, hg⟩

/-- A `BasicIdentityStorage` as the storage of the policy. -/
def ofBasic (db : IdentityStorage.DB) : Store :=
  .identity fun k =>
    match (db.call (.getKey k)).2 with
    | .bytes b => .ok (some b)
    | .raised .security => .error .security
    | _ => .error (.other .runtime)

/-- What is known after calls. -/
noncomputable def knownAfter (ops : List IdentityStorage.Op) : Spec.IdentityStorage.Known := ops.foldl Spec.IdentityStorage.after {}

theorem rep_after (ops : List IdentityStorage.Op) : ∀ {db : IdentityStorage.DB} {K : Spec.IdentityStorage.Known}, IdentityStorage.Rep db K →
    (∀ o ∈ ops, Spec.IdentityStorage.Fine o) → IdentityStorage.Rep (db.run ops).2 (ops.foldl Spec.IdentityStorage.after K) := by
  induction ops with
  | nil => exact fun h _ => h
  | cons o os ih =>
    intro db K h ho
    exact ih (IdentityStorage.call_ok h (ho o (by simp))).2 fun x hx => ho x (by simp [hx])

/-- With a `BasicIdentityStorage`, whatever has been done with it: a key locator names the key that is known (C86) under the key name of
the certificate. -/
theorem C88_basic_storage (ops : List IdentityStorage.Op) (h : ∀ o ∈ ops, Spec.IdentityStorage.Fine o) (kl : KeyLocator) (k : Name) (der : Bytes)
    (ht : kl.type = some 1) (hk : IsKeyNameOf kl.keyName k) (hf : Spec.IdentityStorage.KeyName k) :
    Names (ofBasic (IdentityStorage.DB.run {} ops).2) kl der ↔ (knownAfter ops).key k = some der := by
  have h1 := (IdentityStorage.call_ok (o := .getKey k) (rep_after ops IdentityStorage.empty_rep h) hf).1
  have h2 : ∀ k', IsKeyNameOf kl.keyName k' → k' = k := by
    intro k' hk'
    have h3 := keyName_iff.mpr hk'
    rw [keyName_iff.mpr hk] at h3
    injection h3 with h3
    exact h3.symm
  have h4 : Spec.IdentityStorage.answer (knownAfter ops) (.getKey k) = Spec.IdentityStorage.bytesOr ((knownAfter ops).key k) := rfl
  have h5 : ((IdentityStorage.DB.run {} ops).2.call (.getKey k)).2 = Spec.IdentityStorage.bytesOr ((knownAfter ops).key k) := h1.trans h4
  unfold ofBasic
  constructor
  · rintro ⟨_, k', hk', hg⟩
    rw [h2 k' hk'] at hg
    dsimp only at hg
    rw [h5] at hg
    cases hd : (knownAfter ops).key k with
    | none => rw [hd] at hg; cases hg
    | some d => rw [hd] at hg; cases hg; rfl
  · intro hd
    refine ⟨ht, k, hk, ?_⟩
    dsimp only
    rw [h5, hd]
    rfl

/-! ### Departures -/

/-- A PIB that does not have the key: not onValidationFailed, but a NameError. -/
theorem C88_pib_missing_key (getKeyBits : Name → Except Exn (Option Bytes)) (o : DataObj) (kl : KeyLocator) (v : ValidityPeriod)
    (hi : o.data.signature.info = .rsa kl v) (ht : kl.type = some 1) (hk : getKeyBits kl.keyName = .error .security) (w : Wire)
    (hw : o.wireEncode = .ok w) : verifyData (.selfVerify (.pib getKeyBits)) C o = .error .name := by
  simp only [verifyData, hw, verify, hi, SigInfo.keyLocator?, getPublicKeyDer, ht, if_true, hk]

/-- A Data packet with a signature of another kind: not onValidationFailed, but a SecurityException. -/
theorem C88_unknown_kind (o : DataObj) (enc : Option Bytes) (code : Option Nat) (hi : o.data.signature.info = .generic enc code) (w : Wire)
    (hw : o.wireEncode = .ok w) : verifyData (.selfVerify S) C o = .error .security := by
  simp only [verifyData, hw, verify, hi, SigInfo.keyLocator?, verifySignature]

/-- An HMAC signature that names a stored public key, too. -/
theorem C88_hmac (o : DataObj) (kl : KeyLocator) (der : Bytes) (hi : o.data.signature.info = .hmac kl) (hn : Names S kl der) (w : Wire)
    (hw : o.wireEncode = .ok w) : verifyData (.selfVerify S) C o = .error .security := by
  simp only [verifyData, hw, verify, hi, SigInfo.keyLocator?, names_iff.mpr hn, verifySignature]

/-! ### Concrete packets -/

def c88Comp (s : String) : Component := ⟨.generic, s.toList.map fun c => UInt8.ofNat c.toNat⟩
def c88Key : Name := [c88Comp "a", c88Comp "k"]
def c88Cert : Name := [c88Comp "a", c88Comp "KEY", c88Comp "k", c88Comp "ID-CERT", ⟨.generic, [253, 1]⟩]
def c88Keys : PrivateKeys := { keyType := fun k => if k = c88Key then .ok .ec else .error .security,
                               sign := fun m k => if k = c88Key then .ok (1 :: m) else .error .security }
def c88Crypto : Crypto := { verify := fun m s der => .ok (decide (s = some (1 :: m) ∧ der = [9])), sha256 := fun m => 2 :: m }
def c88Store : Store := .identity fun k => if k = c88Key then .ok (some [9]) else .error .security
def c88Data : DataObj := { data := { name := [c88Comp "d"], content := some [1, 2] } }

theorem c88_isKeyName : IsKeyNameOf c88Cert c88Key := keyName_iff.mp (by decide +kernel)

/-- The hypotheses of the theorems about signing. -/
example : CanonicalName c88Cert ∧ c88Keys.keyType c88Key = .ok .ec ∧ (∀ m, ∃ bits, c88Keys.sign m c88Key = .ok bits) ∧
    Pair c88Keys c88Crypto c88Key [9] ∧ Names c88Store { type := some 1, keyName := c88Cert.dropLast } [9] ∧
    CanonicalName c88Data.data.name ∧ MetaInfoOk c88Data.data.metaInfo ∧ Answers c88Store c88Crypto := by
  refine ⟨fun c hc => ?_, rfl, fun m => ⟨_, rfl⟩, fun m bits hb => ?_, ?_, fun c hc => ?_, ⟨by decide, (fun f hf => by cases hf), by decide, fun _ => rfl⟩,
    ⟨fun m s der => ⟨_, rfl⟩, fun k e hk => ?_⟩⟩
  · simp only [c88Cert, c88Comp, List.mem_cons, List.not_mem_nil, or_false] at hc
    rcases hc with rfl | rfl | rfl | rfl | rfl <;> trivial
  · have : Except.ok (ε := Exn) (1 :: m) = .ok bits := hb
    cases this
    refine ⟨by simp, ?_⟩
    show Except.ok (decide (some (1 :: m) = some (1 :: m) ∧ ([9] : Bytes) = [9])) = _
    rw [decide_eq_true ⟨rfl, rfl⟩]
  · exact C88_same_key _ _ _ _ c88_isKeyName (by intro c hc; cases hc; decide +kernel) rfl
  · rw [List.mem_singleton.1 hc]; trivial
  · dsimp only at hk
    by_cases h : k = c88Key
    · rw [if_pos h] at hk; cases hk
    · rw [if_neg h] at hk; cases hk; rfl

def c88Signed : DataObj := match signData c88Keys c88Cert c88Data with
  | .ok o => o
  | .error _ => c88Data
/-- What is received, a packet with another content, one that names a key that is not stored, and one without a stored key. -/
def c88Received : DataObj := match receive {} (match c88Signed.wireEncode with | .ok w => w.1 | .error _ => []) with
  | .ok o => o
  | .error _ => c88Data
def c88Changed : DataObj := { data := { c88Signed.data with content := some [1, 3] } }
def c88Other : DataObj := { data := { c88Signed.data with signature := { c88Signed.data.signature with info := .ecdsa { type := some 1, keyName := c88Key } none } } }

example : c88Received.data.content = some [1, 2] ∧ verifyData (.selfVerify c88Store) c88Crypto c88Received = .ok .verified ∧
    verifyData (.selfVerify c88Store) c88Crypto c88Changed = .ok .failed ∧ verifyData (.selfVerify c88Store) c88Crypto c88Other = .ok .failed ∧
    verifyData (.selfVerify .none) c88Crypto c88Received = .ok .failed ∧ verifyData .noVerify c88Crypto c88Changed = .ok .verified := by
  refine ⟨?_, ?_, ?_, ?_, ?_, ?_⟩ <;> decide +kernel

example : Known c88Signed.data.signature.info ∧ (∃ w, c88Signed.wireEncode = .ok w) ∧
    (∃ i, signInterest c88Keys c88Cert (fun _ => 7) { interest := { name := [c88Comp "i"] } } = .ok i ∧ i.interest.name.length = 3 ∧
      verifyInterest (.selfVerify c88Store) c88Crypto (fun _ => 8) i = .ok .verified ∧
      verifyInterest (.selfVerify c88Store) c88Crypto (fun _ => 8) { interest := { i.interest with name := i.interest.name.tail } } = .ok .failed) := by
  refine ⟨Or.inr (Or.inr ⟨{ type := some 1, keyName := c88Cert.dropLast }, none, by decide +kernel⟩), ⟨_, (by decide +kernel : c88Signed.wireEncode = .ok (match c88Signed.wireEncode with | .ok w => w | .error _ => ([], 0, 0)))⟩, ?_⟩
  refine ⟨match signInterest c88Keys c88Cert (fun _ => 7) { interest := { name := [c88Comp "i"] } } with | .ok i => i | .error _ => { interest := {} }, ?_, ?_, ?_, ?_⟩ <;> decide +kernel

/-- A digest says nothing about who made it: anybody's packet with one is verified. -/
theorem C88_digest_anybody :
    let o : DataObj := match signDataWithSha256 c88Crypto c88Data with | .ok o => o | .error _ => {data := {}}
    o.data.content = some [1, 2] ∧ verifyData (.selfVerify .none) c88Crypto o = .ok .verified := by
  constructor <;> decide +kernel

/-- A certificate whose name ends in the ID-CERT component: what it signs is not verified, though the storage has the key. -/
theorem C88_id_cert_last :
    let o : DataObj := match signData c88Keys c88Cert.dropLast c88Data with | .ok o => o | .error _ => {data := {}}
    o.data.content = some [1, 2] ∧ IsKeyNameOf c88Cert.dropLast c88Key ∧ verifyData (.selfVerify c88Store) c88Crypto o = .ok .failed :=
  ⟨by decide +kernel, keyName_iff.mp (by decide +kernel), by decide +kernel⟩

/-- A storage with the key added: the hypotheses of `C88_basic_storage`. -/
example : (∀ o ∈ [IdentityStorage.Op.addKey c88Key [9]], Spec.IdentityStorage.Fine o) ∧ Spec.IdentityStorage.KeyName c88Key ∧
    verifyData (.selfVerify (ofBasic (IdentityStorage.DB.run {} [.addKey c88Key [9]]).2)) c88Crypto c88Received = .ok .verified ∧
    verifyData (.selfVerify (ofBasic (IdentityStorage.DB.run {} [.addKey c88Key [9], .deletePublicKeyInfo c88Key]).2)) c88Crypto c88Received =
      .ok .failed := by
  have hk : Spec.IdentityStorage.KeyName c88Key := by
    refine ⟨fun c hc => ?_, c88Comp "k", rfl, by decide +kernel⟩
    simp only [c88Key, c88Comp, List.mem_cons, List.not_mem_nil, or_false] at hc
    rcases hc with rfl | rfl <;> rfl
  refine ⟨fun o ho => ?_, hk, by decide +kernel, by decide +kernel⟩
  rw [List.mem_singleton.1 ho]
  exact hk

end PyNDN.SelfVerify
